import Verif.Spec.Cluster
import Mathlib.Data.List.Nodup
import Mathlib.Tactic.Tauto
/-
C47: all nodes of a cluster use the same key.

The claim about keys is false in general (C47_race): a node looks for a key and creates one in two steps, so two nodes that start together create two
keys, use different ones and reject each other's requests from then on, and nodes that start later may get either. It holds if no two nodes are about
to create the key at the same time (C47_partial), and in any execution after a key exists that nobody else is about to create (C47_established). The
claim about the list of nodes holds if nodes have different URLs (C47_listed); without crashes the list is then exact (C47_exact). The URL is that of
the address a node listens on, which is 127.0.0.1 by default: if two nodes have the same URL, the first that leaves removes both (C47_same_url). A node
that crashes stays in the list, also twice after it restarts (C47_crashed).
-/
namespace ModelarDB.Props
open Model.Cluster Spec.Cluster

variable {ν : Type} [DecidableEq ν]

/-- At most one node is about to create a key. -/
def OneCreates (m : Members ν) : Prop := ∀ n n', m.node n = .creating → m.node n' = .creating → n = n'

/-- A property holds before and after each step. -/
def Throughout (P : Members ν → Prop) (url : Nat → ν) (m : Members ν) : List JoinStep → Prop
  | [] => P m
  | s :: rest => P m ∧ ∀ m', joinStep url m s = some m' → Throughout P url m' rest

omit [DecidableEq ν] in
theorem setNode_self (node : Nat → Joining) (n : Nat) (s : Joining) : setNode node n s n = s := by simp [setNode]

theorem setNode_ne (node : Nat → Joining) {n k : Nat} (s : Joining) (h : k ≠ n) : setNode node n s k = node k := by simp [setNode, h]

/-- What is known about keys. -/
def OneKey (m : Members ν) : Prop :=
  (m.keys = [] ∧ ∀ n k, m.node n ≠ .joined k) ∨ ∃ k, m.keys = [k] ∧ (∀ n, m.node n ≠ .creating) ∧ ∀ n k', m.node n = .joined k' → k' = k

omit [DecidableEq ν] in
theorem oneKey_setNode {m : Members ν} (h : OneKey m) (rows : List ν) (n : Nat) (s : Joining) (hc : s = .creating → m.keys = [])
    (hj : ∀ k, s = .joined k → m.keys = [k]) : OneKey { m with rows := rows, node := setNode m.node n s } := by
  rcases h with ⟨hk, hj'⟩ | ⟨k, hk, hc', hj'⟩
  · refine Or.inl ⟨hk, fun x k => ?_⟩
    show setNode m.node n s x ≠ .joined k
    by_cases hx : x = n
    · subst hx
      rw [setNode_self]
      intro hs
      have := hj k hs
      simp [hk] at this
    · rw [setNode_ne _ _ hx]; exact hj' x k
  · refine Or.inr ⟨k, hk, fun x => ?_, fun x k' => ?_⟩
    · show setNode m.node n s x ≠ .creating
      by_cases hx : x = n
      · subst hx
        rw [setNode_self]
        intro hs
        have := hc hs
        simp [hk] at this
      · rw [setNode_ne _ _ hx]; exact hc' x
    · show setNode m.node n s x = .joined k' → k' = k
      by_cases hx : x = n
      · subst hx
        rw [setNode_self]
        intro hs
        have := hj k' hs
        rw [hk] at this
        injection this with this _
        exact this.symm
      · rw [setNode_ne _ _ hx]; exact hj' x k'

theorem joinStep_oneKey (url : Nat → ν) (m m' : Members ν) (s : JoinStep) (h : OneKey m) (ho : OneCreates m) (hs : joinStep url m s = some m') :
    OneKey m' := by
  cases s with
  | save n =>
    simp only [joinStep] at hs
    split at hs <;> simp only [Option.some.injEq, reduceCtorEq] at hs
    subst hs
    exact oneKey_setNode h _ n _ nofun nofun
  | read n row =>
    simp only [joinStep] at hs
    split at hs
    · split at hs
      · rename_i hk
        simp only [Option.some.injEq] at hs
        subst hs
        exact oneKey_setNode h m.rows n _ (fun _ => hk) nofun
      · rename_i hk
        simp only [Option.map_eq_some_iff] at hs
        obtain ⟨key, hkey, hs⟩ := hs
        subst hs
        refine oneKey_setNode h m.rows n _ nofun (fun k hj => ?_)
        injection hj with hj
        subst hj
        rcases h with ⟨hk', _⟩ | ⟨k, hk', _⟩
        · simp [hk'] at hk
        · have := List.mem_of_getElem? hkey
          rw [hk', List.mem_singleton] at this
          rw [this, hk']
    · simp at hs
  | create n key =>
    simp only [joinStep] at hs
    split at hs
    · rename_i hcr
      simp only [Option.some.injEq] at hs
      subst hs
      rcases h with ⟨hk, hj⟩ | ⟨k, hk, hc, hj⟩
      · refine Or.inr ⟨key, by simp [hk], fun x => ?_, fun x k' => ?_⟩
        · show setNode m.node n _ x ≠ .creating
          by_cases hx : x = n
          · subst hx; rw [setNode_self]; nofun
          · rw [setNode_ne _ _ hx]
            exact fun hx' => hx (ho x n hx' hcr.1)
        · show setNode m.node n _ x = .joined k' → k' = key
          by_cases hx : x = n
          · subst hx
            rw [setNode_self]
            intro h
            injection h with h
            exact h.symm
          · rw [setNode_ne _ _ hx]
            exact fun hx' => absurd hx' (hj x k')
      · exact absurd hcr.1 (hc n)
    · simp at hs
  | leave n =>
    simp only [joinStep] at hs
    split at hs <;> simp only [Option.some.injEq, reduceCtorEq] at hs
    subst hs
    exact oneKey_setNode h _ n _ nofun nofun
  | crash n =>
    simp only [joinStep, Option.some.injEq] at hs
    subst hs
    exact oneKey_setNode h m.rows n _ nofun nofun

theorem joinRun_oneKey (url : Nat → ν) (m m' : Members ν) (steps : List JoinStep) (h : OneKey m) (ho : Throughout OneCreates url m steps)
    (hr : joinRun url m steps = some m') : OneKey m' := by
  induction steps generalizing m with
  | nil =>
    simp only [joinRun, Option.some.injEq] at hr
    exact hr ▸ h
  | cons s rest ih =>
    simp only [joinRun, Option.bind_eq_some_iff] at hr
    obtain ⟨m1, hs, hr⟩ := hr
    exact ih m1 (joinStep_oneKey url m m1 s h ho.1 hs) (ho.2 m1 hs) hr

/-- **C47, partial**: if two nodes are never about to create the key at the same time, then all nodes that have joined have the same key, which is the
one in the remote data folder. -/
theorem C47_partial (url : Nat → ν) (m : Members ν) (steps : List JoinStep) (ho : Throughout OneCreates url (empty ν) steps)
    (hr : joinRun url (empty ν) steps = some m) (n n' k k' : Nat) (hn : m.node n = .joined k) (hn' : m.node n' = .joined k') :
    k = k' ∧ m.keys = [k] := by
  have h0 : OneKey (empty ν) := Or.inl ⟨rfl, fun _ _ => nofun⟩
  rcases joinRun_oneKey url _ m steps h0 ho hr with ⟨_, hj⟩ | ⟨k0, hk, _, hj⟩
  · exact absurd hn (hj n k)
  · have h1 := hj n k hn
    have h2 := hj n' k' hn'
    subst h1
    exact ⟨h2.symm, hk⟩

theorem joinStep_established (url : Nat → ν) (m m' : Members ν) (s : JoinStep) (k : Nat)
    (h : m.keys = [k] ∧ (∀ n, m.node n ≠ .creating) ∧ ∀ n k', m.node n = .joined k' → k' = k) (hs : joinStep url m s = some m') :
    m'.keys = [k] ∧ (∀ n, m'.node n ≠ .creating) ∧ ∀ n k', m'.node n = .joined k' → k' = k := by
  have ho : OneCreates m := fun n _ hn => absurd hn (h.2.1 n)
  have hkeys : m'.keys = [k] := by
    cases s with
    | save n =>
      simp only [joinStep] at hs
      split at hs <;> simp only [Option.some.injEq, reduceCtorEq] at hs
      subst hs; exact h.1
    | read n row =>
      simp only [joinStep, h.1] at hs
      split at hs
      · simp only [Option.map_eq_some_iff] at hs
        obtain ⟨_, _, hs⟩ := hs
        subst hs; rfl
      · simp at hs
    | create n key =>
      simp only [joinStep] at hs
      split at hs
      · rename_i hc; exact absurd hc.1 (h.2.1 n)
      · simp at hs
    | leave n =>
      simp only [joinStep] at hs
      split at hs <;> simp only [Option.some.injEq, reduceCtorEq] at hs
      subst hs; exact h.1
    | crash n =>
      simp only [joinStep, Option.some.injEq] at hs
      subst hs; exact h.1
  rcases joinStep_oneKey url m m' s (Or.inr ⟨k, h⟩) ho hs with ⟨hk, _⟩ | ⟨k0, hk, hc, hj⟩
  · rw [hkeys] at hk; simp at hk
  · rw [hkeys] at hk
    injection hk with hk _
    subst hk
    exact ⟨hkeys, hc, hj⟩

/-- **C47**: when there is a key, all nodes that have joined use it and no node is about to create another, then all nodes that have joined after
any further steps use this key. -/
theorem C47_established (url : Nat → ν) (m m' : Members ν) (steps : List JoinStep) (k : Nat) (hk : m.keys = [k])
    (hc : ∀ n, m.node n ≠ .creating) (hj : ∀ n k', m.node n = .joined k' → k' = k) (hr : joinRun url m steps = some m') :
    m'.keys = [k] ∧ ∀ n k', m'.node n = .joined k' → k' = k := by
  suffices h : ∀ m, (m.keys = [k] ∧ (∀ n, m.node n ≠ .creating) ∧ ∀ n k', m.node n = .joined k' → k' = k) → joinRun url m steps = some m' →
      m'.keys = [k] ∧ (∀ n, m'.node n ≠ .creating) ∧ ∀ n k', m'.node n = .joined k' → k' = k by
    have := h m ⟨hk, hc, hj⟩ hr
    exact ⟨this.1, this.2.2⟩
  clear hk hc hj hr
  induction steps with
  | nil =>
    intro m h hr
    simp only [joinRun, Option.some.injEq] at hr
    exact hr ▸ h
  | cons s rest ih =>
    intro m h hr
    simp only [joinRun, Option.bind_eq_some_iff] at hr
    obtain ⟨m1, hs, hr⟩ := hr
    exact ih m1 (joinStep_established url m m1 s k h hs) hr

theorem joinStep_listed (url : Nat → ν) (hu : Function.Injective url) (m m' : Members ν) (s : JoinStep) (h : ∀ n, Inside m n → url n ∈ m.rows)
    (hs : joinStep url m s = some m') : ∀ n, Inside m' n → url n ∈ m'.rows := by
  intro x hx
  cases s with
  | save n =>
    simp only [joinStep] at hs
    split at hs <;> simp only [Option.some.injEq, reduceCtorEq] at hs
    subst hs
    by_cases hxn : x = n
    · subst hxn; simp
    · simp only [Inside, setNode_ne _ _ hxn] at hx
      exact List.mem_append_left _ (h x hx)
  | read n row =>
    simp only [joinStep] at hs
    split at hs
    · rename_i hn
      split at hs
      · simp only [Option.some.injEq] at hs
        subst hs
        by_cases hxn : x = n
        · subst hxn; exact h x (by rw [Inside, hn]; nofun)
        · simp only [Inside, setNode_ne _ _ hxn] at hx; exact h x hx
      · simp only [Option.map_eq_some_iff] at hs
        obtain ⟨_, _, hs⟩ := hs
        subst hs
        by_cases hxn : x = n
        · subst hxn; exact h x (by rw [Inside, hn]; nofun)
        · simp only [Inside, setNode_ne _ _ hxn] at hx; exact h x hx
    · simp at hs
  | create n key =>
    simp only [joinStep] at hs
    split at hs
    · rename_i hn
      simp only [Option.some.injEq] at hs
      subst hs
      by_cases hxn : x = n
      · subst hxn; exact h x (by rw [Inside, hn.1]; nofun)
      · simp only [Inside, setNode_ne _ _ hxn] at hx; exact h x hx
    · simp at hs
  | leave n =>
    simp only [joinStep] at hs
    split at hs <;> simp only [Option.some.injEq, reduceCtorEq] at hs
    subst hs
    by_cases hxn : x = n
    · subst hxn; simp [Inside, setNode_self] at hx
    · simp only [Inside, setNode_ne _ _ hxn] at hx
      simpa using ⟨h x hx, fun e => hxn (hu e)⟩
  | crash n =>
    simp only [joinStep, Option.some.injEq] at hs
    subst hs
    by_cases hxn : x = n
    · subst hxn; simp [Inside, setNode_self] at hx
    · simp only [Inside, setNode_ne _ _ hxn] at hx; exact h x hx

/-- **C47**: if the nodes have different URLs, then the list of nodes contains every node that has joined and has not left or crashed. -/
theorem C47_listed (url : Nat → ν) (hu : Function.Injective url) (m : Members ν) (steps : List JoinStep)
    (hr : joinRun url (empty ν) steps = some m) (n : Nat) (hn : Inside m n) : url n ∈ m.rows := by
  suffices h : ∀ m0 : Members ν, (∀ n, Inside m0 n → url n ∈ m0.rows) → joinRun url m0 steps = some m → ∀ n, Inside m n → url n ∈ m.rows from
    h (empty ν) (fun _ h => absurd rfl h) hr n hn
  clear hr hn
  induction steps with
  | nil =>
    intro m0 h hr
    simp only [joinRun, Option.some.injEq] at hr
    exact hr ▸ h
  | cons s rest ih =>
    intro m0 h hr
    simp only [joinRun, Option.bind_eq_some_iff] at hr
    obtain ⟨m1, hs, hr⟩ := hr
    exact ih m1 (joinStep_listed url hu m0 m1 s h hs) hr

/-- The step is a crash. -/
def IsCrash : JoinStep → Prop
  | .crash _ => True
  | _ => False

theorem joinStep_exact (url : Nat → ν) (hu : Function.Injective url) (m m' : Members ν) (s : JoinStep) (hc : ¬ IsCrash s)
    (h : m.rows.Nodup ∧ (∀ u ∈ m.rows, ∃ n, u = url n ∧ Inside m n)) (hs : joinStep url m s = some m') :
    m'.rows.Nodup ∧ ∀ u ∈ m'.rows, ∃ n, u = url n ∧ Inside m' n := by
  cases s with
  | save n =>
    simp only [joinStep] at hs
    split at hs <;> simp only [Option.some.injEq, reduceCtorEq] at hs
    rename_i hn
    subst hs
    refine ⟨?_, fun u hm => ?_⟩
    · refine List.Nodup.append h.1 (by simp) ?_
      intro u hm hm'
      obtain ⟨x, hx, hi⟩ := h.2 u hm
      have : x = n := by
        refine hu (hx.symm.trans ?_)
        simpa using hm'
      subst this
      exact hi hn
    · simp only [List.mem_append, List.mem_singleton] at hm
      rcases hm with hm | hm
      · obtain ⟨x, hx, hi⟩ := h.2 u hm
        refine ⟨x, hx, ?_⟩
        have hxn : x ≠ n := fun e => hi (e ▸ hn)
        simpa only [Inside, setNode_ne _ _ hxn] using hi
      · refine ⟨n, hm, ?_⟩
        simp only [Inside, setNode_self]
        nofun
  | read n row =>
    have key : ∀ s' : Joining, s' ≠ .outside → m.rows.Nodup ∧ ∀ u ∈ m.rows, ∃ x, u = url x ∧ Inside { m with node := setNode m.node n s' } x := by
      intro s' hs'
      refine ⟨h.1, fun u hm => ?_⟩
      obtain ⟨x, hx, hi⟩ := h.2 u hm
      refine ⟨x, hx, ?_⟩
      by_cases hxn : x = n
      · subst hxn; simpa only [Inside, setNode_self] using hs'
      · simpa only [Inside, setNode_ne _ _ hxn] using hi
    simp only [joinStep] at hs
    split at hs
    · split at hs
      · simp only [Option.some.injEq] at hs
        subst hs
        exact key _ nofun
      · simp only [Option.map_eq_some_iff] at hs
        obtain ⟨_, _, hs⟩ := hs
        subst hs
        exact key _ nofun
    · simp at hs
  | create n key =>
    simp only [joinStep] at hs
    split at hs
    · simp only [Option.some.injEq] at hs
      subst hs
      refine ⟨h.1, fun u hm => ?_⟩
      obtain ⟨x, hx, hi⟩ := h.2 u hm
      refine ⟨x, hx, ?_⟩
      by_cases hxn : x = n
      · subst hxn; simp only [Inside, setNode_self]; nofun
      · simpa only [Inside, setNode_ne _ _ hxn] using hi
    · simp at hs
  | leave n =>
    simp only [joinStep] at hs
    split at hs <;> simp only [Option.some.injEq, reduceCtorEq] at hs
    subst hs
    refine ⟨h.1.filter _, fun u hm => ?_⟩
    simp only [ne_eq, decide_not, List.mem_filter, Bool.not_eq_eq_eq_not, Bool.not_true, decide_eq_false_iff_not] at hm
    obtain ⟨x, hx, hi⟩ := h.2 u hm.1
    refine ⟨x, hx, ?_⟩
    have hxn : x ≠ n := fun e => hm.2 (e ▸ hx)
    simpa only [Inside, setNode_ne _ _ hxn] using hi
  | crash n => exact absurd trivial hc

/-- **C47**: if moreover no node crashes, then the list of nodes has exactly the nodes that have joined and have not left, each of them once. -/
theorem C47_exact (url : Nat → ν) (hu : Function.Injective url) (m : Members ν) (steps : List JoinStep) (hc : ∀ s ∈ steps, ¬ IsCrash s)
    (hr : joinRun url (empty ν) steps = some m) : m.rows.Nodup ∧ ∀ u, u ∈ m.rows ↔ ∃ n, u = url n ∧ Inside m n := by
  have hl := C47_listed url hu m steps hr
  suffices h : ∀ m0 : Members ν, (m0.rows.Nodup ∧ ∀ u ∈ m0.rows, ∃ n, u = url n ∧ Inside m0 n) →
      joinRun url m0 steps = some m → m.rows.Nodup ∧ ∀ u ∈ m.rows, ∃ n, u = url n ∧ Inside m n by
    have := h (empty ν) ⟨List.nodup_nil, nofun⟩ hr
    refine ⟨this.1, fun u => ⟨this.2 u, ?_⟩⟩
    rintro ⟨n, rfl, hn⟩
    exact hl n hn
  clear hr hl
  induction steps with
  | nil =>
    intro m0 h hr
    simp only [joinRun, Option.some.injEq] at hr
    exact hr ▸ h
  | cons s rest ih =>
    intro m0 h hr
    simp only [joinRun, Option.bind_eq_some_iff] at hr
    obtain ⟨m1, hs, hr⟩ := hr
    exact ih (fun s hs => hc s (List.mem_cons_of_mem _ hs)) m1 (joinStep_exact url hu m0 m1 s (hc s (List.mem_cons_self ..)) h hs) hr

/-- Three nodes join, one leaves and joins again. -/
example : Throughout OneCreates id (empty Nat)
    [.save 0, .save 1, .read 0 0, .create 0 7, .read 1 0, .save 2, .read 2 0, .leave 1, .save 1, .read 1 0] ∧
    (∃ m, joinRun id (empty Nat) [.save 0, .save 1, .read 0 0, .create 0 7, .read 1 0, .save 2, .read 2 0, .leave 1, .save 1, .read 1 0] = some m ∧
      m.rows = [0, 2, 1] ∧ m.keys = [7] ∧ m.node 0 = .joined 7 ∧ m.node 1 = .joined 7 ∧ m.node 2 = .joined 7) := by
  constructor
  · have key : ∀ (m : Members Nat) (a : Nat), (∀ n, m.node n = .creating → n = a) → OneCreates m :=
      fun m a h n n' hn hn' => (h n hn).trans (h n' hn').symm
    simp only [Throughout]
    repeat' first
      | exact key _ 0 (fun n hn => by
          by_contra h0
          revert hn
          by_cases h1 : n = 1 <;> by_cases h2 : n = 2 <;> simp [setNode, h0, h1, h2, empty])
      | (refine ⟨?_, ?_⟩)
      | (intro m' h'
         simp [joinStep, setNode, empty] at h'
         subst h')
  · exact ⟨_, rfl, by decide, by decide, by decide, by decide, by decide⟩

/-- Two nodes start together: both find no key, each creates one and uses its own, and a third node gets one of them. The keys stay different. -/
theorem C47_race : ∃ m, joinRun id (empty Nat) [.save 0, .save 1, .read 0 0, .read 1 0, .create 0 7, .create 1 8, .save 2, .read 2 1] = some m ∧
    m.node 0 = .joined 7 ∧ m.node 1 = .joined 8 ∧ m.node 2 = .joined 8 ∧ m.rows = [0, 1, 2] :=
  ⟨_, rfl, by decide, by decide, by decide, by decide⟩

/-- Two nodes with the same URL: when one leaves, the other is not in the list of nodes any more. -/
theorem C47_same_url : ∃ m, joinRun (fun _ => "grpc://127.0.0.1:9999") (empty String)
      [.save 0, .read 0 0, .create 0 7, .save 1, .read 1 0, .leave 1] = some m ∧ m.node 0 = .joined 7 ∧ m.rows = [] :=
  ⟨_, rfl, by decide, by decide⟩

/-- A node that crashes stays in the list, and is in the list twice after it has restarted. -/
theorem C47_crashed : (∃ m, joinRun id (empty Nat) [.save 0, .read 0 0, .create 0 7, .save 1, .read 1 0, .crash 1] = some m ∧
      m.node 1 = .outside ∧ m.rows = [0, 1]) ∧
    ∃ m, joinRun id (empty Nat) [.save 0, .read 0 0, .create 0 7, .save 1, .read 1 0, .crash 1, .save 1, .read 1 0] = some m ∧
      m.node 1 = .joined 7 ∧ m.rows = [0, 1, 1] :=
  ⟨⟨_, rfl, by decide, by decide⟩, ⟨_, rfl, by decide, by decide⟩⟩

end ModelarDB.Props
