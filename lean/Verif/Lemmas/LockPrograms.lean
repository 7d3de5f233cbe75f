import Verif.Lemmas.Locks
/-
The order in which requests take locks.
-/
namespace ModelarDB.Lemmas.Locks
open Model.Locks Spec.Locks

/-- The locks that are written: those of the configuration only if `cw`. -/
def Written (cw : Prop) (p : Nat × Lock) : Prop := p.2 = .configuration → cw

/-- The order of locks, the configuration of the node `a` is first. -/
def rank (a : Nat) : Nat × Lock → Nat
  | (u, .configuration) => if u = a then 0 else 1
  | (_, .storage) => 2
  | (_, .log) => 3
  | (_, .transfer) => 3

variable {cw : Prop} {a : Nat} {held : List ((Nat × Lock) × Mode)} {c : Cluster} {u : Nat}

/-- The locks that are held come before those of rank `k`. -/
def Below (cw : Prop) (a k : Nat) (held : List ((Nat × Lock) × Mode)) : Prop := ∀ q ∈ held, Written cw q.1 → rank a q.1 < k

theorem rank_configuration_le : rank a (u, .configuration) ≤ 1 := by
  simp only [rank]
  split <;> omega

theorem Below.nil {k : Nat} : Below cw a k [] := fun _ h => nomatch h

theorem Below.mono {j k : Nat} (h : Below cw a j held) (hk : j ≤ k) : Below cw a k held := fun q hq hw => Nat.lt_of_lt_of_le (h q hq hw) hk

theorem Below.cons {k : Nat} {q : (Nat × Lock) × Mode} (h : Below cw a k held) (hq : Written cw q.1 → rank a q.1 < k) : Below cw a k (q :: held) := by
  intro p hp hw
  rcases List.mem_cons.mp hp with rfl | hp
  · exact hq hw
  · exact h p hp hw

abbrev Blk (cw : Prop) (a : Nat) (held : List ((Nat × Lock) × Mode)) (p : Program) : Prop := Block (Written cw) (rank a) held p

theorem storage_block {m : Mode} {p : Program} (h : Below cw a 2 held) (hp : Blk cw a (((u, .storage), m) :: held) p) :
    Blk cw a held (holding u .storage m p) := Block.holding (fun _ h => nomatch h) (fun _ => h) hp

theorem log_block {m : Mode} (h : Below cw a 3 held) : Blk cw a held (holding u .log m [.work]) :=
  Block.holding (fun _ h => nomatch h) (fun _ => h) Block.work

theorem transfer_block {m : Mode} (h : Below cw a 3 held) : Blk cw a held (holding u .transfer m [.work]) :=
  Block.holding (fun _ h => nomatch h) (fun _ => h) Block.work

theorem configuration_block {p : Program} (h : cw → Below cw a (rank a (u, .configuration)) held)
    (hp : Blk cw a (((u, .configuration), .read) :: held) p) : Blk cw a held (holding u .configuration .read p) :=
  Block.holding (fun h => nomatch h) (fun hw => h (hw rfl)) hp

theorem configuration_write_block {p : Program} (hcw : cw) (h : Below cw a (rank a (u, .configuration)) held)
    (hp : Blk cw a (((u, .configuration), .write) :: held) p) : Blk cw a held (holding u .configuration .write p) :=
  Block.holding (fun _ _ => hcw) (fun _ => h) hp

theorem below_storage (h : Below cw a 2 held) {m : Mode} : Below cw a 3 (((u, .storage), m) :: held) :=
  (h.mono (by omega)).cons fun _ => by simp [rank]

theorem below_configuration {k : Nat} (hk : 1 < k) (h : Below cw a k held) {m : Mode} : Below cw a k (((u, .configuration), m) :: held) :=
  h.cons fun _ => Nat.lt_of_le_of_lt rank_configuration_le hk

theorem saveOne_block (h : Below cw a 3 held) : Blk cw a held (saveOne c u) := by
  simp only [saveOne, List.cons_append]
  exact Block.cons_work (((Block.ite (fun _ => log_block h) Block.nil).append (transfer_block h)).append Block.work)

theorem saves_block (h : Below cw a 3 held) : ∀ k, Blk cw a held (saves c u k)
  | 0 => Block.nil
  | k + 1 => (saveOne_block h).append (saves_block h k)

theorem dropFromStorage_block (h : Below cw a 2 held) {k : Nat} : Blk cw a held (dropFromStorage c u k) :=
  storage_block h (((transfer_block (below_storage h)).append (saves_block (below_storage h) k)).append (transfer_block (below_storage h)))

theorem createTable_block (h : Below cw a 2 held) {kind : Kind} (hk : cw → kind = .normal) : Blk cw a held (createTable c u kind) := by
  cases kind with
  | normal => exact Block.work
  | series =>
    exact Block.cons_work (configuration_block (fun hcw => nomatch hk hcw)
      (Block.ite (fun _ => log_block (below_configuration (by omega) (h.mono (by omega)))) Block.nil))

theorem dropTable_block (h : Below cw a 2 held) {t : Kind × Nat} (hk : cw → t.1 = .normal) : Blk cw a held (dropTable c u t) := by
  obtain ⟨kind, k⟩ := t
  cases kind with
  | normal => exact (dropFromStorage_block h).append Block.work
  | series =>
    exact ((dropFromStorage_block h).append (configuration_block (fun hcw => nomatch hk hcw)
      (Block.ite (fun _ => log_block (below_configuration (by omega) (h.mono (by omega)))) Block.nil))).append Block.work

theorem truncateTable_block (h : Below cw a 2 held) {t : Kind × Nat} (hk : cw → t.1 = .normal) : Blk cw a held (truncateTable c u t) := by
  obtain ⟨kind, k⟩ := t
  cases kind with
  | normal => exact (dropFromStorage_block h).append Block.work
  | series =>
    exact ((dropFromStorage_block h).append (configuration_block (fun hcw => nomatch hk hcw)
      (Block.ite (fun _ => log_block (below_configuration (by omega) (h.mono (by omega)))) Block.nil))).append Block.work

/-- Requests that are sent to other nodes. -/
theorem peers_block {f : Nat → Program} (hpeers : cw → c.peers u = [] ∨ (u = a ∧ a ∉ c.peers a))
    (hf : ∀ v ∈ c.peers u, ∀ held, Below cw a 2 held → Blk cw a held (f v)) :
    Blk cw a [((u, .configuration), .read)] ((c.peers u).flatMap fun v => forwarded v (f v)) := by
  refine Block.flatMap fun v hv => configuration_block (fun hcw => ?_)
    (hf v hv _ (below_configuration (by omega) (below_configuration (by omega) Below.nil)))
  rcases hpeers hcw with h | ⟨rfl, h⟩
  · rw [h] at hv; cases hv
  · have hva : v ≠ u := fun h' => h (h' ▸ hv)
    exact Below.nil.cons fun _ => by simp [rank, hva]

/-- The requests that take locks in order: if the configuration is changed, those that are plain and are only sent on by the node `a`. -/
theorem program_block {r : Request} (hup : Updates r → cw) (hplain : cw → Plain c u r)
    (hlocal : cw → Local c u r ∨ (u = a ∧ a ∉ c.peers a)) : Blk cw a [] (program c u r) := by
  have h1 : Below cw a 2 [((u, Lock.configuration), Mode.read)] := below_configuration (by omega) Below.nil
  have hpeers : ∀ {f : Nat → Program}, (cw → c.peers u = [] ∨ (u = a ∧ a ∉ c.peers a)) →
      (∀ v ∈ c.peers u, ∀ held, Below cw a 2 held → Blk cw a held (f v)) →
      Blk cw a [((u, .configuration), .read)] ((c.peers u).flatMap fun v => forwarded v (f v)) := fun h hf => peers_block h hf
  have hread : Blk cw a [] (holding u .configuration .read [.work]) := configuration_block (fun _ => Below.nil) Block.work
  have hput : ∀ {m}, Blk cw a [] (holding u .storage m (.work :: holding u .transfer .read [.work])) := fun {m} =>
    storage_block Below.nil (Block.cons_work (transfer_block (below_storage Below.nil)))
  have hputs : Blk cw a [] (holding u .storage .write ((if c.wal u then holding u .log .read [.work] else []) ++ [.work])) :=
    storage_block Below.nil ((Block.ite (fun _ => log_block (below_storage Below.nil)) Block.nil).append Block.work)
  cases r with
  | create kind =>
    exact configuration_block (fun _ => Below.nil)
      ((hpeers hlocal fun v _ _ h => createTable_block h hplain).append (createTable_block h1 hplain))
  | drop tables =>
    refine configuration_block (fun _ => Below.nil) ((hpeers hlocal fun v _ _ h => ?_).append ?_)
    · exact Block.flatMap fun t ht => dropTable_block h fun hcw => hplain hcw t ht
    · exact Block.flatMap fun t ht => dropTable_block h1 fun hcw => hplain hcw t ht
  | truncate tables cluster =>
    refine configuration_block (fun _ => Below.nil) (Block.append (Block.ite (fun hcl => hpeers ?_ fun v _ _ h => ?_) Block.nil) ?_)
    · exact fun hcw => (hlocal hcw).imp (fun h => h hcl) id
    · exact Block.flatMap fun t ht => truncateTable_block h fun hcw => hplain hcw t ht
    · exact Block.flatMap fun t ht => truncateTable_block h1 fun hcw => hplain hcw t ht
  | vacuum tables cluster =>
    refine configuration_block (fun _ => Below.nil)
      (Block.append (Block.ite (fun hcl => hpeers ?_ fun v _ _ h => Block.times Block.work _) Block.nil) (Block.times Block.work _))
    exact fun hcw => (hlocal hcw).imp (fun h => h hcl) id
  | putNormal k => exact Block.times hput k
  | putSeries k => exact Block.times hputs k
  | insertNormal k => exact Block.times hput k
  | insertSeries k => exact Block.times hputs k
  | flushMemory k => exact storage_block Below.nil (saves_block (below_storage Below.nil) k)
  | flushNode k =>
    exact storage_block Below.nil ((saves_block (below_storage Below.nil) k).append (transfer_block (below_storage Below.nil)))
  | killNode k =>
    refine storage_block Below.nil (((saves_block (below_storage Below.nil) k).append (transfer_block (below_storage Below.nil))).append ?_)
    refine Block.ite (fun hr => configuration_block (fun hcw => ?_) Block.work) Block.nil
    have h0 : c.remote u = false := hplain hcw
    rw [hr] at h0
    cases h0
  | flightInfo => exact hread
  | getConfiguration => exact hread
  | nodeType => exact hread
  | updateMemory k =>
    refine configuration_write_block (hup trivial) Below.nil ((storage_block ?_ (saves_block (below_storage ?_) k)).append Block.work) <;>
      exact below_configuration (by omega) Below.nil
  | updateTransfer =>
    refine configuration_write_block (hup trivial) Below.nil ((storage_block ?_ (transfer_block (below_storage ?_))).append Block.work) <;>
      exact below_configuration (by omega) Below.nil
  | updateSegmentSize =>
    exact configuration_write_block (hup trivial) Below.nil
      ((Block.ite (fun _ => log_block (below_configuration (by omega) Below.nil)) Block.nil).append Block.work)
  | ctrlC k => exact (storage_block Below.nil (saves_block (below_storage Below.nil) k)).append hread
  | writer k => exact saves_block Below.nil k
  | periodicTransfer => exact Block.cons_work (transfer_block Below.nil)

/-- Requests that take locks in order all finish. -/
theorem server_ordered {n : Nat} {requests : Fin n → Nat × Request} (hup : ∀ t, Updates (requests t).2 → cw)
    (hplain : cw → ∀ t, Plain c (requests t).1 (requests t).2)
    (hlocal : cw → ∀ t, Local c (requests t).1 (requests t).2 ∨ ((requests t).1 = a ∧ a ∉ c.peers a)) :
    AllOrdered (Written cw) (rank a) (server c requests) :=
  ⟨fun t => (program_block (hup t) (fun h => hplain h t) (fun h => hlocal h t)).ordered, fun _ _ h => nomatch h⟩

end ModelarDB.Lemmas.Locks
