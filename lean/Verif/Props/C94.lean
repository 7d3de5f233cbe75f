import Verif.Lemmas.Addresses
/-
C94: A statement for the whole cluster that succeeds is executed by each node that is running, whatever machines the nodes run on.
-/
namespace ModelarDB.Props
open Model.Addresses Lemmas.Addresses

/-- C94: nodes have the same URL if and only if they are started with the same host and port. -/
theorem C94_url (a b : Member) : a.url = b.url ↔ a.host = b.host ∧ a.port = b.port := by
  constructor
  · intro h
    obtain ⟨h1, h2⟩ := split_colon (colon_toDigits _) (colon_toDigits _) (List.append_cancel_left h)
    refine ⟨h1, ?_⟩
    have e := congrArg (Nat.ofDigitChars 10 · 0) h2
    simp only [Nat.ofDigitChars_ten_toDigits] at e
    exact e
  · rintro ⟨h1, h2⟩
    rw [Member.url, Member.url, h1, h2]

/-- C94 for a node `k` whose host and port no other node has, if its URL leads to it from the machine of the node that receives the statement: the statement is executed by `k` if it succeeds. The other
nodes may be started in any way, with the same hosts and ports, start, stop and crash. What is missing: `C94_same_address`, `C94_removed_by_other` and `C94_wrong_machine` show that
nodes that are running are missed without an error otherwise. -/
theorem C94_reached_partial {nodes : List Nat} {member : Nat → Member} {route : Nat → List Char → Option (Nat × Nat)} {steps : List Step} {st : State} {n k : Nat} {executed : List Nat}
    (h : run nodes member .empty steps = some st) (hk : st.phase k = .serving)
    (hown : ∀ j, j ≠ k → ¬ ((member j).host = (member k).host ∧ (member j).port = (member k).port))
    (hroute : route (member n).machine (member k).url = some ((member k).machine, (member k).port))
    (he : execute nodes member route st n = some executed) : k ∈ executed := by
  have inv := inv_run (inv_empty nodes member) h
  simp only [execute, Option.map_eq_some_iff] at he
  obtain ⟨ns, hns, rfl⟩ := he
  by_cases hnk : n = k
  · subst hnk; simp
  · have hurl : ∀ j, j ≠ k → (member j).url ≠ (member k).url := fun j hj e => hown j hj ((C94_url _ _).mp e)
    have hne : st.phase k ≠ .outside := by rw [hk]; nofun
    have hpeer : (member k).url ∈ peers member st n :=
      List.mem_filter.mpr ⟨inv.listed k hne hurl, by simpa using (hurl n hnk).symm⟩
    obtain ⟨m, hm, e⟩ := (mem_receivers hns).1 _ hpeer
    simp only [receiver, hroute, Option.bind_some] at e
    have hl := List.find?_some e
    simp only [listens, Bool.and_eq_true, decide_eq_true_eq] at hl
    rw [← inv.alone m k hl.1.1 hk hl.1.2 hl.2]
    exact List.mem_append_left _ hm

/-- C94, in all executions and networks: only nodes that are running, and the node that received the statement, execute it. -/
theorem C94_only_running {nodes : List Nat} {member : Nat → Member} {route : Nat → List Char → Option (Nat × Nat)} {st : State} {n : Nat} {executed : List Nat}
    (he : execute nodes member route st n = some executed) : ∀ k ∈ executed, k = n ∨ (k ∈ nodes ∧ st.phase k = .serving) := by
  intro k hk
  simp only [execute, Option.map_eq_some_iff] at he
  obtain ⟨ns, hns, rfl⟩ := he
  rcases List.mem_append.mp hk with hk | hk
  · obtain ⟨url, _, e⟩ := (mem_receivers hns).2 k hk
    simp only [receiver, Option.bind_eq_some_iff] at e
    obtain ⟨⟨m, p⟩, _, e⟩ := e
    have hl := List.find?_some e
    simp only [listens, Bool.and_eq_true, decide_eq_true_eq] at hl
    exact .inr ⟨List.mem_of_find?_eq_some e, hl.1.1⟩
  · exact .inl (List.mem_singleton.mp hk)

/-- C94 is false of nodes on different machines that are started with the same host and port, e.g. the default 127.0.0.1 and 9999 or 0.0.0.0 as in the manual: in all executions and
networks a statement for the whole cluster succeeds and only the node that received it has executed it. -/
theorem C94_same_address {nodes : List Nat} {member : Nat → Member} {route : Nat → List Char → Option (Nat × Nat)} {steps : List Step} {st : State} {host : List Char} {port : Nat}
    (h : run nodes member .empty steps = some st) (hsame : ∀ k, (member k).host = host ∧ (member k).port = port) (n : Nat) :
    execute nodes member route st n = some [n] := by
  have hurl : ∀ k, (member k).url = (member n).url := fun k => by
    rw [Member.url, Member.url, (hsame k).1, (hsame k).2, (hsame n).1, (hsame n).2]
  have hp : peers member st n = [] := by
    refine List.filter_eq_nil_iff.mpr (fun url hu => ?_)
    rcases rows_run h url hu with h | ⟨k, _, rfl⟩
    · cases h
    · simp [hurl k]
  simp only [execute, hp, receivers, Option.map_some, List.nil_append]

/-! ### Cases -/

/-- A network in which 127.0.0.1 is the own machine and 10.0.0.x the machine x, for the ports 9998 and 9999. -/
private def network (machine : Nat) (url : List Char) : Option (Nat × Nat) :=
  [9998, 9999].findSome? fun p =>
    if url = Member.url ⟨0, "127.0.0.1".toList, p⟩ then some (machine, p)
    else [0, 1, 2].findSome? fun m => if url = Member.url ⟨0, "10.0.0.".toList ++ Nat.toDigits 10 m, p⟩ then some (m, p) else none

/-- Nodes on three machines with their own addresses. -/
private def own (n : Nat) : Member := ⟨n % 3, "10.0.0.".toList ++ Nat.toDigits 10 (n % 3), 9999⟩

/-- Nodes on three machines with the default host and port. -/
private def default_ (n : Nat) : Member := ⟨n % 3, "127.0.0.1".toList, 9999⟩

private def started : List Step := [.start 0, .serve 0, .start 1, .serve 1, .start 2, .serve 2]

/-- The nodes that execute a statement that the node `n` receives after some steps. -/
private def outcome (member : Nat → Member) (steps : List Step) (n : Nat) : Option (Option (List Nat)) :=
  (run [0, 1, 2] member .empty steps).map fun st => execute [0, 1, 2] member network st n

/-- With addresses of their own, all nodes execute the statement; with the default, only the node that received it. -/
theorem C94_default_missed : outcome own started 1 = some (some [0, 2, 1]) ∧ outcome default_ started 1 = some (some [1]) := by decide +kernel

/-- C94 is false: a node that leaves removes other nodes with the same host and port, so they are missed by statements that are sent to a node with another address. -/
theorem C94_removed_by_other :
    let member := fun n => if n = 0 then own 0 else default_ n
    outcome member (started ++ [.leave 2]) 0 = some (some [0]) := by decide +kernel

/-- C94 is false: with different ports but the default host, the URL of a node on another machine leads to a node on the own machine, which executes the statement twice, and the statement succeeds
although the node on the other machine has not executed it. -/
theorem C94_wrong_machine :
    let member : Nat → Member := fun n => if n = 0 then ⟨0, "10.0.0.0".toList, 9999⟩ else if n = 1 then ⟨0, "10.0.0.0".toList, 9998⟩ else ⟨1, "127.0.0.1".toList, 9998⟩
    outcome member started 0 = some (some [1, 1, 0]) := by decide +kernel

/-- A node that cannot listen on its port ends with an error, but is in the list of nodes already, so the node that listens on the port
executes statements twice. -/
theorem C94_port_in_use :
    let member : Nat → Member := fun n => if n = 0 then own 0 else if n = 1 then own 1 else ⟨1, "10.0.0.1".toList, 9999⟩
    outcome member [.start 0, .serve 0, .start 1, .serve 1, .start 2, .serve 2] 0 = none ∧
      outcome member [.start 0, .serve 0, .start 1, .serve 1, .start 2, .crash 2] 0 = some (some [1, 1, 0]) := by decide +kernel

/-- A case of `C94_reached_partial` in which two other nodes have the same address and one of them has left. -/
example : let member : Nat → Member := fun n => if n = 1 then own 1 else default_ (if n = 0 then 0 else 2)
    ∃ st executed, run [0, 1, 2] member .empty (started ++ [.leave 2]) = some st ∧ execute [0, 1, 2] member network st 0 = some executed ∧ 1 ∈ executed := by
  intro member
  have h1 : (run [0, 1, 2] member .empty (started ++ [.leave 2])).isSome = true := by decide +kernel
  obtain ⟨st, hst⟩ := Option.isSome_iff_exists.mp h1
  have h2 : ∀ st ∈ run [0, 1, 2] member .empty (started ++ [.leave 2]), (execute [0, 1, 2] member network st 0).isSome = true ∧ st.phase 1 = .serving := by
    decide +kernel
  obtain ⟨executed, he⟩ := Option.isSome_iff_exists.mp (h2 st hst).1
  refine ⟨st, executed, hst, he, C94_reached_partial hst (h2 st hst).2 (fun j hj hc => ?_) (by decide +kernel) he⟩
  have : (member j).host = "127.0.0.1".toList := by simp only [member, if_neg hj, default_]
  rw [this] at hc
  exact absurd hc.1 (by decide +kernel)

end ModelarDB.Props
