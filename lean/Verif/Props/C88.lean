import Verif.Spec.Settings
import Verif.Spec.Ints
import Verif.Lemmas.Timestamps
/-
C88: a change of a setting that is confirmed is used, reported and kept, and one that is refused changes nothing.
-/
namespace ModelarDB.Props
open Model Model.Configuration Model.Settings Spec Spec.Settings

theorem ofNumber_iff {k : Int} {s : Setting} : Setting.ofNumber k = some s ↔ k = number s := by
  constructor
  · intro h
    unfold Setting.ofNumber at h
    split at h <;> first | (cases h; rfl) | cases h
  · rintro rfl
    cases s <;> rfl

theorem ofNumber_number (s : Setting) : Setting.ofNumber (number s) = some s := ofNumber_iff.mpr rfl

/-- A request has set a setting, and the file is written if it can be. -/
structure Sets (n n' : Node) (s : Setting) (value : Option Nat) (w : World) : Prop where
  isSet : valueOf n'.configuration s = value
  others : ∀ t, t ≠ s → valueOf n'.configuration t = valueOf n.configuration t
  threads : n'.configuration.ingestionThreads = n.configuration.ingestionThreads ∧
    n'.configuration.compressionThreads = n.configuration.compressionThreads ∧ n'.configuration.writerThreads = n.configuration.writerThreads
  wal : n'.configuration.walEnabled = n.configuration.walEnabled
  file : n'.file = if w.saved then n'.configuration.print else n.file
  used : ¬IsMemory s → Uses n'.components s value
  same : ∀ t, t ≠ s → ∀ v, Uses n'.components t v ↔ Uses n.components t v
  remote : n'.remote = n.remote

/-- A request has set nothing. -/
structure Refuses (n n' : Node) (s : Option Setting) (w : World) : Prop where
  configuration : n'.configuration = n.configuration
  file : n'.file = n.file
  same : ∀ t, (∀ v, Uses n'.components t v ↔ Uses n.components t v) ∨ ((t = .uncompressed ∨ t = .compressed) ∧ s = some t ∧ w.freeing = false)
  remote : n'.remote = n.remote

theorem Refuses.refl (n : Node) (s : Option Setting) (w : World) : Refuses n n s w := ⟨rfl, rfl, fun _ => Or.inl fun _ => Iff.rfl, rfl⟩

/-- What a request that sets a setting answers. -/
def Outcome (n : Node) (x : Node × Answer) (s : Option Setting) (value : Option Nat) (w : World) : Prop :=
  (x.2 ≠ .confirmed ∧ Refuses n x.1 s w) ∨ ∃ s', s = some s' ∧ x.2 = (if w.saved then .confirmed else .internal) ∧ Sets n x.1 s' value w

/-- The file is written when everything else has been done. -/
theorem save_spec {n n₁ : Node} {s : Setting} {value : Option Nat} {w : World} (h1 : valueOf n₁.configuration s = value)
    (h2 : ∀ t, t ≠ s → valueOf n₁.configuration t = valueOf n.configuration t)
    (h3 : n₁.configuration.ingestionThreads = n.configuration.ingestionThreads ∧
      n₁.configuration.compressionThreads = n.configuration.compressionThreads ∧ n₁.configuration.writerThreads = n.configuration.writerThreads)
    (h4 : n₁.configuration.walEnabled = n.configuration.walEnabled) (h5 : n₁.file = n.file) (h6 : ¬IsMemory s → Uses n₁.components s value)
    (h7 : ∀ t, t ≠ s → ∀ v, Uses n₁.components t v ↔ Uses n.components t v) (h8 : n₁.remote = n.remote) :
    Outcome n (n₁.save w) (some s) value w := by
  refine Or.inr ⟨s, rfl, ?_, ?_⟩ <;> unfold Node.save <;> cases hw : w.saved
  · rfl
  · rfl
  · exact ⟨h1, h2, h3, h4, by simpa [hw] using h5, h6, h7, h8⟩
  · exact ⟨h1, h2, h3, h4, by simp [hw], h6, h7, h8⟩

theorem update_spec (n : Node) (setting : Int) (value : Option Nat) (w : World) :
    Outcome n (n.update setting value w) (Setting.ofNumber setting) value w := by
  have refused : ∀ {a : Answer} {s}, a ≠ .confirmed → Outcome n (n, a) s value w := fun ha => Or.inl ⟨ha, Refuses.refl n _ w⟩
  unfold Node.update
  split
  · next h =>
    rw [h]
    refine save_spec rfl ?_ ⟨rfl, rfl, rfl⟩ rfl rfl (fun h => absurd (Or.inl rfl) h) ?_ rfl
    · intro t ht; cases t <;> first | rfl | exact absurd rfl ht
    · intro t ht v; cases t <;> first | exact Iff.rfl | exact absurd rfl ht
  · next h =>
    rw [h]
    unfold Node.setUncompressed
    split
    · refine save_spec rfl ?_ ⟨rfl, rfl, rfl⟩ rfl rfl (fun h => absurd (Or.inr (Or.inl rfl)) h) ?_ rfl
      · intro t ht; cases t <;> first | rfl | exact absurd rfl ht
      · intro t ht v; cases t <;> first | exact Iff.rfl | exact absurd rfl ht
    · next m hm =>
      refine Or.inl ⟨by simp, rfl, rfl, fun t => ?_, rfl⟩
      cases t
      case uncompressed =>
        refine Or.inr ⟨Or.inl rfl, rfl, ?_⟩
        unfold Memory.adjustUncompressed at hm
        dsimp only at hm
        split at hm
        · split at hm
          · simp at hm
          · next hf => simpa using hf
        · simp at hm
      all_goals exact Or.inl fun _ => Iff.rfl
  · next h =>
    rw [h]
    unfold Node.setCompressed
    split
    · refine save_spec rfl ?_ ⟨rfl, rfl, rfl⟩ rfl rfl (fun h => absurd (Or.inr (Or.inr rfl)) h) ?_ rfl
      · intro t ht; cases t <;> first | rfl | exact absurd rfl ht
      · intro t ht v; cases t <;> first | exact Iff.rfl | exact absurd rfl ht
    · next m hm =>
      refine Or.inl ⟨by simp, rfl, rfl, fun t => ?_, rfl⟩
      cases t
      case compressed =>
        refine Or.inr ⟨Or.inr rfl, rfl, ?_⟩
        unfold Memory.adjustCompressed at hm
        dsimp only at hm
        split at hm
        · simpa using congrArg Prod.snd hm
        · simp at hm
      all_goals exact Or.inl fun _ => Iff.rfl
  · next h =>
    rw [h]
    unfold Node.setTransferBatchSize
    split
    · exact refused (by simp)
    · next tr htr =>
      split
      · exact refused (by simp)
      · refine save_spec rfl ?_ ⟨rfl, rfl, rfl⟩ rfl rfl (fun _ => ?_) ?_ rfl
        · intro t ht; cases t <;> first | rfl | exact absurd rfl ht
        · intro t ht; cases ht; rfl
        · intro t ht v
          cases t
          case transferBatchSize => exact absurd rfl ht
          case transferTime => simp [Uses, htr]
          all_goals exact Iff.rfl
  · next h =>
    rw [h]
    unfold Node.setTransferTime
    split
    · exact refused (by simp)
    · next tr htr =>
      refine save_spec rfl ?_ ⟨rfl, rfl, rfl⟩ rfl rfl (fun _ => ?_) ?_ rfl
      · intro t ht; cases t <;> first | rfl | exact absurd rfl ht
      · intro t ht; cases ht; rfl
      · intro t ht v
        cases t
        case transferTime => exact absurd rfl ht
        case transferBatchSize => simp [Uses, htr]
        all_goals exact Iff.rfl
  · next h =>
    rw [h]
    unfold Node.setSegmentSize
    split
    · exact refused (by simp)
    · next l hl =>
      refine save_spec rfl ?_ ⟨rfl, rfl, rfl⟩ rfl rfl (fun _ => ?_) ?_ rfl
      · intro t ht; cases t <;> first | rfl | exact absurd rfl ht
      · intro t ht
        cases ht
        refine ⟨rfl, fun t ht => ?_⟩
        obtain ⟨t', _, rfl⟩ := List.mem_map.mp ht
        rfl
      · intro t ht v; cases t <;> first | exact Iff.rfl | exact absurd rfl ht
  · exact refused (by simp)
  · exact refused (by simp)

/-! ### Requests -/

/-- **C88**, what is confirmed: exactly the setting of the request has the value of the request in the configuration and in what GetConfiguration returns,
it is in the configuration file, and the component uses it. For memory see `C88_memory_partial`. -/
theorem C88_confirmed {n n' : Node} {setting : Int} {value : Option Nat} {w : World} (h : n.update setting value w = (n', .confirmed)) :
    ∃ s, setting = number s ∧ valueOf n'.configuration s = value ∧ reported n'.report s = value ∧
      (∀ t, t ≠ s → valueOf n'.configuration t = valueOf n.configuration t ∧ reported n'.report t = reported n.report t) ∧
      n'.file = n'.configuration.print ∧ (¬IsMemory s → Uses n'.components s value) ∧
      ∀ t, t ≠ s → ∀ v, Uses n'.components t v ↔ Uses n.components t v := by
  have hr : ∀ (m : Node) t, reported m.report t = valueOf m.configuration t := fun m t => by cases t <;> rfl
  rcases update_spec n setting value w with ⟨h1, _⟩ | ⟨s, h1, h2, h3⟩
  · rw [h] at h1
    exact absurd rfl h1
  · rw [h] at h2 h3
    refine ⟨s, ofNumber_iff.mp h1, h3.isSet, (hr n' s).trans h3.isSet, fun t ht => ⟨h3.others t ht, ?_⟩, ?_, h3.used, h3.same⟩
    · rw [hr, hr, h3.others t ht]
    · have := h3.file
      cases hw : w.saved
      · rw [hw] at h2
        simp at h2
      · rw [hw, if_pos rfl] at this
        exact this

/-- **C88**, what is refused: nothing changes if the file can be written and it was not freeing memory that failed. A setting that does not exist, a value that
is missing and a component that does not exist are always refused like this. Missing: requests that are refused since the file could not be written or memory
could not be freed, they change the settings that are used (`C88_refused_used`, `C88_memory_wrong`). -/
theorem C88_refused_partial {n n' : Node} {setting : Int} {value : Option Nat} {w : World} {a : Answer} (h : n.update setting value w = (n', a))
    (ha : a ≠ .confirmed) (hw : w.saved = true) (hf : setting = 1 ∨ setting = 2 → w.freeing = true) : SameSettings n n' := by
  rcases update_spec n setting value w with ⟨_, h2⟩ | ⟨s, _, h2, _⟩
  · rw [h] at h2
    refine ⟨h2.configuration, h2.file, fun s v => ?_⟩
    rcases h2.same s with h3 | ⟨h3, h4, h5⟩
    · exact h3 v
    · have h6 := ofNumber_iff.mp h4
      rw [hf (by rcases h3 with rfl | rfl <;> simp [h6, number])] at h5
      cases h5
  · rw [h, hw] at h2
    exact absurd h2 ha

/-- **C88**, a setting that does not exist, or that must have a value and is given none, is refused and nothing changes. -/
theorem C88_invalid_refused (n : Node) (setting : Int) (value : Option Nat) (w : World)
    (h : (∀ s, setting ≠ number s) ∨ (value = none ∧ setting ≠ 3 ∧ setting ≠ 4)) :
    (n.update setting value w).1 = n ∧ ((n.update setting value w).2 = .unimplemented ∨ (n.update setting value w).2 = .invalidArgument) := by
  unfold Node.update
  have hno : ∀ s, Setting.ofNumber setting = some s → (∃ v, value = some v) ∨ s = .transferBatchSize ∨ s = .transferTime → False := by
    intro s hs hv
    have := ofNumber_iff.mp hs
    rcases h with h | ⟨h1, h2, h3⟩
    · exact h s this
    · subst this
      rcases hv with ⟨v, hv⟩ | rfl | rfl
      · rw [h1] at hv; cases hv
      · exact h2 rfl
      · exact h3 rfl
  split
  · next hs => exact (hno _ hs (Or.inl ⟨_, rfl⟩)).elim
  · next hs => exact (hno _ hs (Or.inl ⟨_, rfl⟩)).elim
  · next hs => exact (hno _ hs (Or.inl ⟨_, rfl⟩)).elim
  · next hs => exact (hno _ hs (Or.inr (Or.inl rfl))).elim
  · next hs => exact (hno _ hs (Or.inr (Or.inr rfl))).elim
  · next hs => exact (hno _ hs (Or.inl ⟨_, rfl⟩)).elim
  · exact ⟨rfl, Or.inr rfl⟩
  · exact ⟨rfl, Or.inl rfl⟩

/-! ### Histories -/

/-- A server uses the settings of its configuration apart from memory. -/
def OthersInEffect (n : Node) : Prop := ∀ s, ¬IsMemory s → Uses n.components s (valueOf n.configuration s)

theorem start_spec {remote : Bool} {tables : List String} {file : Option File} {args : Args} {n : Node} (h : Node.start remote tables file args = some n) :
    ∃ c f, load file args = some (c, f) ∧ c.ingested < 2 ^ 63 ∧ c.uncompressed < 2 ^ 63 ∧ c.compressed < 2 ^ 63 ∧ n.configuration = c ∧ n.file = f ∧
      n.remote = remote ∧ n.components.ingested = ⟨c.ingested, 0⟩ ∧ n.components.uncompressed = ⟨c.uncompressed, 0⟩ ∧
      n.components.compressed = ⟨c.compressed, 0⟩ ∧
      n.components.transfer = (if remote then some ⟨c.transferBatchSize, c.transferTime⟩ else none) ∧
      n.components.log = (if c.walEnabled then some ⟨c.segmentSize, tables.map fun t => (t, c.segmentSize)⟩ else none) := by
  unfold Node.start at h
  simp only [Option.bind_eq_bind, Option.bind_eq_some_iff] at h
  obtain ⟨⟨c, f⟩, h1, i, h2, u, h3, k, h4, h5⟩ := h
  have hm : ∀ {v m : Nat}, toMemory v = some m → v < 2 ^ 63 ∧ m = v := by
    intro v m h
    unfold toMemory at h
    split at h
    · next hv => exact ⟨hv, (Option.some.inj h).symm⟩
    · cases h
  obtain ⟨g2, rfl⟩ := hm h2
  obtain ⟨g3, rfl⟩ := hm h3
  obtain ⟨g4, rfl⟩ := hm h4
  cases h5
  exact ⟨c, f, h1, g2, g3, g4, rfl, rfl, rfl, rfl, rfl, rfl, rfl, rfl⟩

theorem start_others {remote : Bool} {tables : List String} {file : Option File} {args : Args} {n : Node}
    (h : Node.start remote tables file args = some n) : OthersInEffect n := by
  obtain ⟨c, f, _, _, _, _, rfl, _, _, _, _, _, h9, h10⟩ := start_spec h
  intro s hs
  cases s
  case ingested => exact absurd (Or.inl rfl) hs
  case uncompressed => exact absurd (Or.inr (Or.inl rfl)) hs
  case compressed => exact absurd (Or.inr (Or.inr rfl)) hs
  case segmentSize =>
    intro l hl
    rw [h10] at hl
    split at hl
    · cases hl
      refine ⟨rfl, fun t ht => ?_⟩
      obtain ⟨t', _, rfl⟩ := List.mem_map.mp ht
      rfl
    · cases hl
  all_goals
    intro t ht
    rw [h9] at ht
    split at ht
    · cases ht
      rfl
    · cases ht

theorem step_update {n n' : Node} {setting : Int} {value : Option Nat} {w : World} {a : Option Answer}
    (h : n.step (.update setting value w) = some (n', a)) : n.update setting value w = (n', a.getD .internal) ∧ a.isSome ∧
      ∀ p, freedIn (Setting.ofNumber setting) = some p → 0 ≤ w.freed ∧ w.freed ≤ (n.components.memory p).reserved := by
  unfold Node.step at h
  dsimp only at h
  cases hs : freedIn (Setting.ofNumber setting) with
  | none =>
    rw [hs] at h
    cases h
    exact ⟨rfl, rfl, fun p hp => by cases hp⟩
  | some p =>
    rw [hs] at h
    dsimp only at h
    split at h
    · next hp =>
      cases h
      refine ⟨rfl, rfl, fun p' hp' => ?_⟩
      cases hp'
      simpa using hp
    · cases h

theorem step_others {n n' : Node} {op : Op} {a : Option Answer} (hn : OthersInEffect n) (h : n.step op = some (n', a)) : OthersInEffect n' := by
  cases op with
  | update setting value w =>
    obtain ⟨h1, _, _⟩ := step_update h
    intro s hs
    rcases update_spec n setting value w with ⟨_, h2⟩ | ⟨s', _, _, h3⟩
    · rw [h1] at h2
      rw [h2.configuration]
      rcases h2.same s with h4 | ⟨h4, _, _⟩
      · exact (h4 _).mpr (hn s hs)
      · exact absurd (Or.inr h4) hs
    · rw [h1] at h3
      rcases Classical.em (s = s') with rfl | hne
      · rw [h3.isSet]
        exact h3.used hs
      · rw [h3.others s hne]
        exact (h3.same s hne _).mpr (hn s hs)
  | reserve pool amount =>
    simp only [Node.step] at h
    split at h
    · cases h
      intro s hs
      have := hn s hs
      cases pool <;> cases s <;> first | exact this | exact absurd (Or.inl rfl) hs | exact absurd (Or.inr (Or.inl rfl)) hs | exact absurd (Or.inr (Or.inr rfl)) hs
    · cases h
  | createTable table =>
    cases h
    intro s hs
    have := hn s hs
    cases s
    case segmentSize =>
      intro l hl
      simp only [Option.map_eq_some_iff] at hl
      obtain ⟨l', hl', rfl⟩ := hl
      obtain ⟨h1, h2⟩ := this l' hl'
      unfold Log.create
      split
      · exact ⟨h1, h2⟩
      · refine ⟨h1, fun t ht => ?_⟩
        rcases List.mem_cons.mp ht with rfl | ht
        · exact h1
        · exact h2 t ht
    all_goals exact this
  | dropTable table =>
    cases h
    intro s hs
    have := hn s hs
    cases s
    case segmentSize =>
      intro l hl
      simp only [Option.map_eq_some_iff] at hl
      obtain ⟨l', hl', rfl⟩ := hl
      obtain ⟨h1, h2⟩ := this l' hl'
      exact ⟨h1, fun t ht => h2 t (List.mem_filter.mp ht).1⟩
    all_goals exact this
  | restart tables args =>
    simp only [Node.step, Option.map_eq_some_iff] at h
    obtain ⟨m, h1, h2⟩ := h
    cases h2
    exact start_others h1

theorem run_induction {p : Node → Prop} {ops : List Op} {n n' : Node} (q : Op → Prop) (hq : ∀ op ∈ ops, q op)
    (hstep : ∀ m m' op a, q op → p m → m.step op = some (m', a) → p m') (hn : p n) (h : n.run ops = some n') : p n' := by
  induction ops generalizing n with
  | nil => cases h; exact hn
  | cons op ops ih =>
    simp only [Node.run, Option.bind_eq_some_iff] at h
    obtain ⟨⟨m, a⟩, h1, h2⟩ := h
    exact ih (fun o ho => hq o (List.mem_cons_of_mem _ ho)) (hstep n m op a (hq op (by simp)) hn h1) h2

/-- **C88** for transfers and log files: in every history, also with requests that are refused or fail and with restarts, the transfers and the log of each table
use the value that is in the configuration and that GetConfiguration returns. -/
theorem C88_transfer_and_log {n : Node} {ops : List Op} (hn : Reached n ops) (s : Setting) (hs : ¬IsMemory s) :
    Uses n.components s (valueOf n.configuration s) ∧ Uses n.components s (reported n.report s) := by
  obtain ⟨remote, tables, file, args, n₀, h1, h2⟩ := hn
  have h := run_induction (p := OthersInEffect) (fun _ => True) (fun _ _ => trivial) (fun m m' op a _ => step_others) (start_others h1) h2 s hs
  refine ⟨h, ?_⟩
  have hr : reported n.report s = valueOf n.configuration s := by cases s <;> rfl
  rw [hr]
  exact h

/-- The memory of a component is what is configured and less than `2 ^ 63` bytes are reserved. -/
structure Budgeted (m : Memory) (c : Nat) : Prop where
  total : m.remaining + m.reserved = c
  reserved : 0 ≤ m.reserved ∧ m.reserved < 2 ^ 63
  configured : c < 2 ^ 63

theorem valueChange_eq {new old : Nat} (h1 : new < 2 ^ 63) (h2 : old < 2 ^ 63) : valueChange new old = (new : Int) - old := by
  unfold valueChange asI64
  rw [Lemmas.wrapI64_of_range (x := (new : Int)) (by unfold IsI64; omega), Lemmas.wrapI64_of_range (x := (old : Int)) (by unfold IsI64; omega),
    Lemmas.wrapI64_of_range (by unfold IsI64; omega)]

theorem Budgeted.adjust {m : Memory} {old : Nat} (h : Budgeted m old) {new : Nat} (hnew : new < 2 ^ 63) : Budgeted (m.adjust (valueChange new old)) new := by
  obtain ⟨h1, h2, h3⟩ := h
  have : (m.adjust (valueChange new old)).remaining = new - m.reserved := by
    unfold Memory.adjust
    dsimp only
    rw [valueChange_eq hnew h3, Lemmas.wrapI64_of_range (by unfold IsI64; omega)]
    omega
  exact ⟨by rw [this]; show _ + m.reserved = _; omega, h2, hnew⟩

theorem Budgeted.free {m : Memory} {c : Nat} (h : Budgeted m c) {freed : Int} (h1 : 0 ≤ freed) (h2 : freed ≤ m.reserved) : Budgeted (m.free freed) c := by
  obtain ⟨a, b, d⟩ := h
  exact ⟨by show _ + freed + (_ - freed) = _; omega, ⟨by show 0 ≤ _ - freed; omega, by show _ - freed < _; omega⟩, d⟩

theorem Budgeted.adjustUncompressed {m : Memory} {old : Nat} (h : Budgeted m old) {new : Nat} (hnew : new < 2 ^ 63) {w : World} (h1 : 0 ≤ w.freed)
    (h2 : w.freed ≤ m.reserved) :
    Budgeted (m.adjustUncompressed (valueChange new old) w).1 (if (m.adjustUncompressed (valueChange new old) w).2 then new else old) := by
  have ha := h.adjust hnew
  unfold Memory.adjustUncompressed
  dsimp only
  split
  · have hf := ha.free h1 (by exact h2)
    cases w.freeing
    · have hc := valueChange_eq hnew h.configured
      have hr := hf.adjust h.configured
      have hw : wrapI64 (-valueChange new old) = valueChange old new := by
        rw [hc, valueChange_eq h.configured hnew, Lemmas.wrapI64_of_range (by have := h.configured; unfold IsI64; omega)]
        omega
      rw [hw]
      simpa using hr
    · simpa using hf
  · exact ha

theorem Budgeted.adjustCompressed {m : Memory} {old : Nat} (h : Budgeted m old) {new : Nat} (hnew : new < 2 ^ 63) {w : World} (h1 : 0 ≤ w.freed)
    (h2 : w.freed ≤ m.reserved) : Budgeted (m.adjustCompressed (valueChange new old) w).1 new := by
  have ha := h.adjust hnew
  unfold Memory.adjustCompressed
  dsimp only
  split
  · exact ha.free h1 h2
  · exact ha

/-- The three amounts of memory are those in the configuration. -/
structure MemoryInEffect (n : Node) : Prop where
  ingested : Budgeted n.components.ingested n.configuration.ingested
  uncompressed : Budgeted n.components.uncompressed n.configuration.uncompressed
  compressed : Budgeted n.components.compressed n.configuration.compressed

theorem start_memory {remote : Bool} {tables : List String} {file : Option File} {args : Args} {n : Node}
    (h : Node.start remote tables file args = some n) : MemoryInEffect n := by
  obtain ⟨c, f, _, h1, h2, h3, rfl, _, _, h4, h5, h6, _, _⟩ := start_spec h
  refine ⟨?_, ?_, ?_⟩
  · rw [h4]; exact ⟨by simp, by simp, h1⟩
  · rw [h5]; exact ⟨by simp, by simp, h2⟩
  · rw [h6]; exact ⟨by simp, by simp, h3⟩

theorem save_memory {n : Node} {w : World} (h : MemoryInEffect n) : MemoryInEffect (n.save w).1 := by
  unfold Node.save
  split
  · exact ⟨h.1, h.2, h.3⟩
  · exact h

theorem update_memory {n : Node} {setting : Int} {value : Option Nat} {w : World} (hn : MemoryInEffect n) (hfine : Fine (.update setting value w))
    (hf : ∀ p, freedIn (Setting.ofNumber setting) = some p → 0 ≤ w.freed ∧ w.freed ≤ (n.components.memory p).reserved) :
    MemoryInEffect (n.update setting value w).1 := by
  obtain ⟨hsmall, hfree⟩ := hfine
  unfold Node.update
  split
  · next v h =>
    have := ofNumber_iff.mp h
    exact save_memory ⟨hn.ingested.adjust (hsmall (Or.inl this) _ rfl), hn.2, hn.3⟩
  · next v h =>
    have hk := ofNumber_iff.mp h
    obtain ⟨f1, f2⟩ := hf .uncompressed (by rw [h]; rfl)
    have ha := hn.uncompressed.adjustUncompressed (hsmall (Or.inr (Or.inl hk)) v rfl) f1 f2
    unfold Node.setUncompressed
    split
    · next m hm =>
      rw [hm] at ha
      exact save_memory ⟨hn.1, ha, hn.3⟩
    · next m hm =>
      rw [hm] at ha
      exact ⟨hn.1, ha, hn.3⟩
  · next v h =>
    have hk := ofNumber_iff.mp h
    obtain ⟨f1, f2⟩ := hf .compressed (by rw [h]; rfl)
    have ha := hn.compressed.adjustCompressed (hsmall (Or.inr (Or.inr hk)) v rfl) f1 f2
    unfold Node.setCompressed
    split
    · next m hm =>
      rw [hm] at ha
      exact save_memory ⟨hn.1, hn.2, ha⟩
    · next m hm =>
      unfold Memory.adjustCompressed at hm
      dsimp only at hm
      rw [hfree hk] at hm
      split at hm <;> simp at hm
  · unfold Node.setTransferBatchSize
    split
    · exact hn
    · split
      · exact hn
      · exact save_memory ⟨hn.1, hn.2, hn.3⟩
  · unfold Node.setTransferTime
    split
    · exact hn
    · exact save_memory ⟨hn.1, hn.2, hn.3⟩
  · unfold Node.setSegmentSize
    split
    · exact hn
    · exact save_memory ⟨hn.1, hn.2, hn.3⟩
  · exact hn
  · exact hn

theorem Budgeted.reserve {m : Memory} {c : Nat} (h : Budgeted m c) {amount : Int} (hf : fits (m.reserve amount).reserved = true) :
    Budgeted (m.reserve amount) c := by
  obtain ⟨h1, h2, h3⟩ := h
  unfold fits at hf
  simp only [Bool.and_eq_true, decide_eq_true_eq] at hf
  exact ⟨by show _ - amount + (_ + amount) = _; omega, hf, h3⟩

theorem step_memory {n n' : Node} {op : Op} {a : Option Answer} (hfine : Fine op) (hn : MemoryInEffect n) (h : n.step op = some (n', a)) :
    MemoryInEffect n' := by
  cases op with
  | update setting value w =>
    obtain ⟨h1, _, h2⟩ := step_update h
    have := update_memory hn hfine h2
    rw [h1] at this
    exact this
  | reserve pool amount =>
    simp only [Node.step] at h
    split at h
    · next hf =>
      cases h
      cases pool
      · exact ⟨hn.1.reserve hf, hn.2, hn.3⟩
      · exact ⟨hn.1, hn.2.reserve hf, hn.3⟩
      · exact ⟨hn.1, hn.2, hn.3.reserve hf⟩
    · cases h
  | createTable table => cases h; exact ⟨hn.1, hn.2, hn.3⟩
  | dropTable table => cases h; exact ⟨hn.1, hn.2, hn.3⟩
  | restart tables args =>
    simp only [Node.step, Option.map_eq_some_iff] at h
    obtain ⟨m, h1, h2⟩ := h
    cases h2
    exact start_memory h1

/-- **C88** for memory: in every history, also with requests that fail since the file cannot be written or uncompressed memory cannot be freed, and whatever memory
is reserved, the memory of each component is the value in the configuration. Missing: values of `2 ^ 63` and above (`C28_large_value`), and requests that fail since
compressed memory cannot be freed (`C88_memory_wrong`). -/
theorem C88_memory_partial {n : Node} {ops : List Op} (hn : Reached n ops) (hfine : ∀ op ∈ ops, Fine op) (s : Setting) (hs : IsMemory s) :
    Uses n.components s (valueOf n.configuration s) ∧ Uses n.components s (reported n.report s) := by
  obtain ⟨remote, tables, file, args, n₀, h1, h2⟩ := hn
  have h := run_induction (p := MemoryInEffect) Fine hfine (fun m m' op a => step_memory) (start_memory h1) h2
  have hr : reported n.report s = valueOf n.configuration s := by cases s <;> rfl
  rw [hr]
  have : Uses n.components s (valueOf n.configuration s) := by
    rcases hs with rfl | rfl | rfl
    · exact congrArg some h.ingested.total
    · exact congrArg some h.uncompressed.total
    · exact congrArg some h.compressed.total
  exact ⟨this, this⟩

/-! ### Restarts -/

private theorem print_parsed (c : Configuration) : Configuration.parse c.print = some c := rfl

/-- What a server that is started again has: flags, and otherwise what is in the file. -/
theorem restart_spec {n n' : Node} {tables : List String} {args : Args} {a : Option Answer} {c : Configuration} (hf : n.file = c.print)
    (h : n.step (.restart tables args) = some (n', a)) :
    (∀ s, valueOf n'.configuration s = (given args s).or (valueOf c s)) ∧ n'.file = n'.configuration.print := by
  simp only [Node.step, Option.map_eq_some_iff] at h
  obtain ⟨m, h1, h2⟩ := h
  cases h2
  obtain ⟨c', f, h3, _, _, _, h4, h5, _⟩ := start_spec h1
  rw [hf] at h3
  simp only [load, print_parsed, Option.bind_eq_bind, Option.bind_some] at h3
  split at h3
  · cases h3
    rw [h5, h4]
    refine ⟨fun s => ?_, rfl⟩
    obtain ⟨a1, a2, a3, a4, a5, a6, a7⟩ := args
    cases s
    · cases a1 <;> rfl
    · cases a2 <;> rfl
    · cases a3 <;> rfl
    · cases a4 <;> rfl
    · cases a5 <;> rfl
    · cases a6 <;> rfl
  · cases h3

/-- The configuration and the file have a value. -/
def Has (s : Setting) (value : Option Nat) (n : Node) : Prop := valueOf n.configuration s = value ∧ ∃ c : Configuration, n.file = c.print ∧ valueOf c s = value

theorem step_has {s : Setting} {value : Option Nat} {n n' : Node} {op : Op} {a : Option Answer} (ho : Leaves s op) (hn : Has s value n)
    (h : n.step op = some (n', a)) : Has s value n' := by
  obtain ⟨hv, c, hf, hc⟩ := hn
  cases op with
  | update setting value' w =>
    obtain ⟨h1, _, _⟩ := step_update h
    rcases update_spec n setting value' w with ⟨_, h2⟩ | ⟨s', h4, _, h3⟩
    · rw [h1] at h2
      exact ⟨h2.configuration ▸ hv, c, h2.file.trans hf, hc⟩
    · rw [h1] at h3
      have hne : s ≠ s' := by rintro rfl; exact ho (ofNumber_iff.mp h4)
      have hv' := (h3.others s hne).trans hv
      refine ⟨hv', ?_⟩
      have := h3.file
      split at this
      · exact ⟨_, this, hv'⟩
      · exact ⟨c, this.trans hf, hc⟩
  | reserve pool amount =>
    simp only [Node.step] at h
    split at h
    · cases h
      exact ⟨hv, c, hf, hc⟩
    · cases h
  | createTable table => cases h; exact ⟨hv, c, hf, hc⟩
  | dropTable table => cases h; exact ⟨hv, c, hf, hc⟩
  | restart tables args =>
    obtain ⟨h1, h2⟩ := restart_spec hf h
    have h3 : valueOf n'.configuration s = value := by rw [h1, show given args s = none from ho, hc]; rfl
    exact ⟨h3, _, h2, h3⟩

/-- **C88**, what is confirmed is kept: after any further steps, with restarts and with requests that are confirmed, refused or fail, the setting has the value that was
confirmed in the configuration, in what GetConfiguration returns and in the file, as long as there is no other request or flag for it. -/
theorem C88_kept {n n₁ n' : Node} {s : Setting} {value : Option Nat} {w : World} (h : n.update (number s) value w = (n₁, .confirmed)) {ops : List Op}
    (hops : ∀ op ∈ ops, Leaves s op) (hrun : n₁.run ops = some n') :
    valueOf n'.configuration s = value ∧ reported n'.report s = value ∧ ∃ c : Configuration, n'.file = c.print ∧ valueOf c s = value := by
  obtain ⟨s', h1, h2, _, _, h3, _⟩ := C88_confirmed h
  have : s' = s := by
    have h4 := ofNumber_number s
    rw [h1, ofNumber_number s'] at h4
    exact Option.some.inj h4
  subst this
  obtain ⟨a, b⟩ := run_induction (p := Has s' value) (Leaves s') hops (fun m m' op a => step_has) ⟨h2, _, h3, h2⟩ hrun
  exact ⟨a, by rw [← a]; cases s' <;> rfl, b⟩

/-- The file has one thread of each kind and less than `2 ^ 63` bytes of memory, and so has the configuration. -/
def Startable (n : Node) : Prop :=
  n.configuration.validate = true ∧ MemoryInEffect n ∧
    ∃ c : Configuration, n.file = c.print ∧ c.validate = true ∧ c.ingested < 2 ^ 63 ∧ c.uncompressed < 2 ^ 63 ∧ c.compressed < 2 ^ 63

theorem start_startable {remote : Bool} {tables : List String} {file : Option File} {args : Args} {n : Node}
    (h : Node.start remote tables file args = some n) : Startable n := by
  obtain ⟨c, f, h1, h2, h3, h4, h5, h6, _⟩ := start_spec h
  have hc : c.validate = true ∧ f = c.print := by
    have key : ∀ c₀ : Option Configuration, (c₀.bind fun c => if (c.update args).validate = true then some (c.update args, (c.update args).print) else none) =
        some (c, f) → c.validate = true ∧ f = c.print := by
      intro c₀ h
      obtain ⟨c₁, _, h⟩ := Option.bind_eq_some_iff.mp h
      split at h
      · next hv => cases h; exact ⟨hv, rfl⟩
      · cases h
    unfold load at h1
    cases file with
    | none => exact key (some Configuration.default) h1
    | some file => exact key (Configuration.parse file) h1
  exact ⟨by rw [h5]; exact hc.1, start_memory h, c, by rw [h6, hc.2], hc.1, h2, h3, h4⟩

theorem step_startable {n n' : Node} {op : Op} {a : Option Answer} (hfine : Fine op) (hn : Startable n) (h : n.step op = some (n', a)) : Startable n' := by
  have hm := step_memory hfine hn.2.1 h
  obtain ⟨hv, _, c, hf, hc⟩ := hn
  cases op with
  | update setting value w =>
    obtain ⟨h1, _, _⟩ := step_update h
    rcases update_spec n setting value w with ⟨_, h2⟩ | ⟨s', _, _, h3⟩
    · rw [h1] at h2
      exact ⟨h2.configuration ▸ hv, hm, c, h2.file.trans hf, hc⟩
    · rw [h1] at h3
      have hv' : n'.configuration.validate = true := by
        unfold Configuration.validate at hv ⊢
        have ht := h3.threads
        dsimp only at ht
        rw [ht.1, ht.2.1, ht.2.2]
        exact hv
      refine ⟨hv', hm, ?_⟩
      have := h3.file
      split at this
      · exact ⟨_, this, hv', hm.1.configured, hm.2.configured, hm.3.configured⟩
      · exact ⟨c, this.trans hf, hc⟩
  | reserve pool amount =>
    simp only [Node.step] at h
    split at h
    · cases h
      exact ⟨hv, hm, c, hf, hc⟩
    · cases h
  | createTable table => cases h; exact ⟨hv, hm, c, hf, hc⟩
  | dropTable table => cases h; exact ⟨hv, hm, c, hf, hc⟩
  | restart tables args =>
    simp only [Node.step, Option.map_eq_some_iff] at h
    obtain ⟨m, h1, h2⟩ := h
    cases h2
    exact start_startable h1

/-- **C88**, a server whose settings have been changed can be started again. Missing: values of `2 ^ 63` and above (`C88_not_started`). -/
theorem C88_restarts_partial {n : Node} {ops : List Op} (hn : Reached n ops) (hfine : ∀ op ∈ ops, Fine op) (tables : List String) {args : Args}
    (hargs : SmallFlags args) : ∃ n', n.step (.restart tables args) = some (n', none) := by
  obtain ⟨remote, tables', file, args', n₀, h1, h2⟩ := hn
  obtain ⟨_, _, c, hf, hv, c1, c2, c3⟩ := run_induction (p := Startable) Fine hfine (fun m m' op a => step_startable) (start_startable h1) h2
  have hm : ∀ {v : Nat}, v < 2 ^ 63 → toMemory v = some v := fun h => by unfold toMemory; rw [if_pos h]
  have g1 : (c.update args).ingested < 2 ^ 63 := by
    unfold Configuration.update
    dsimp only
    split
    · next v hv => exact hargs .ingested (Or.inl rfl) v hv
    · exact c1
  have g2 : (c.update args).uncompressed < 2 ^ 63 := by
    unfold Configuration.update
    dsimp only
    split
    · next v hv => exact hargs .uncompressed (Or.inr (Or.inl rfl)) v hv
    · exact c2
  have g3 : (c.update args).compressed < 2 ^ 63 := by
    unfold Configuration.update
    dsimp only
    split
    · next v hv => exact hargs .compressed (Or.inr (Or.inr rfl)) v hv
    · exact c3
  have hload : load (some n.file) args = some (c.update args, (c.update args).print) := by
    rw [hf]
    simp only [load, print_parsed, Option.bind_eq_bind, Option.bind_some]
    exact if_pos hv
  have hs : (Node.start n.remote tables (some n.file) args).isSome = true := by
    unfold Node.start
    simp [hload, hm g1, hm g2, hm g3]
  obtain ⟨n', hn'⟩ := Option.isSome_iff_exists.mp hs
  exact ⟨n', by simp [Node.step, hn']⟩

/-! ### Examples -/

def noFlags : Args := ⟨none, none, none, none, none, none, none⟩

def calm : World := ⟨true, 0, true, true⟩

/-- A server with two tables in a cluster: the transfer time is set, the batch size is removed, memory is reduced while some is reserved so that some is freed, a table is
created after the size of log files is set, and the server is started again. -/
def settingSteps : List Op :=
  [.update 4 (some 60) calm, .update 3 none calm, .reserve .uncompressed 100, .update 1 (some 40) ⟨true, 70, true, true⟩, .update 5 (some 7) calm,
    .createTable "c", .update 9 (some 1) calm, .update 0 none calm, .update 2 (some 5) ⟨false, 0, true, true⟩]

def settingNode : Node := ((Node.start true ["a", "b"] none noFlags).bind fun n => n.run settingSteps).get (by decide +kernel)

theorem settingNode_reached : Reached settingNode settingSteps := by
  refine ⟨true, ["a", "b"], none, noFlags, (Node.start true ["a", "b"] none noFlags).get (by decide +kernel), by decide +kernel, by decide +kernel⟩

example : settingNode.components = ⟨⟨536870912, 0⟩, ⟨10, 30⟩, ⟨5, 0⟩, some ⟨none, some 60⟩, some ⟨7, [("c", 7), ("a", 7), ("b", 7)]⟩⟩ ∧
    (∀ op ∈ settingSteps, Fine op) ∧ SmallFlags noFlags := by
  refine ⟨by decide +kernel, ?_, ?_⟩
  · simp [settingSteps, Fine, calm]
  · intro s _ v hv
    cases s <;> cases hv

/-- A server with table `a` that has just been started. -/
def freshNode : Node := (Node.start true ["a"] none noFlags).get (by decide +kernel)

def keptSteps : List Op :=
  [.update 3 (some 5) ⟨false, 0, true, true⟩, .restart ["a"] { noFlags with ingested := some 8 }, .update 0 (some 9) calm, .restart [] noFlags]

/-- The transfer time is still used after two restarts, one with a flag for another setting. -/
example : (freshNode.update 4 (some 60) calm).2 = .confirmed ∧ (∀ op ∈ keptSteps, Leaves .transferTime op) ∧
    ((freshNode.update 4 (some 60) calm).1.run keptSteps).map (fun n => n.components.transfer) = some (some ⟨some 67108864, some 60⟩) := by
  refine ⟨by decide +kernel, ?_, by decide +kernel⟩
  simp [keptSteps, Leaves, given, number, noFlags]

/-- **C88** is false if the configuration file cannot be written: the request is refused, but the value is used and reported until the server is started again. -/
theorem C88_refused_used : ∃ n₀ n₁ n₂ : Node, Node.start true ["a"] none noFlags = some n₀ ∧ n₀.update 5 (some 7) ⟨false, 0, true, true⟩ = (n₁, .internal) ∧
    n₁.components.log = some ⟨7, [("a", 7)]⟩ ∧ reported n₁.report .segmentSize = some 7 ∧ n₁.step (.restart ["a"] noFlags) = some (n₂, none) ∧
    n₂.components.log = some ⟨67108864, [("a", 67108864)]⟩ := by
  refine ⟨freshNode, (freshNode.update 5 (some 7) ⟨false, 0, true, true⟩).1,
    (((freshNode.update 5 (some 7) ⟨false, 0, true, true⟩).1.step (.restart ["a"] noFlags)).get (by decide +kernel)).1, ?_⟩
  decide +kernel

/-- **C88** is false if compressed data cannot be saved: 20 bytes are configured and 15 are reserved. A request for 5 bytes is refused since nothing can be freed. The
configuration has 20 bytes, but the memory is that of the request, and after another request for 20 bytes is confirmed it still is. -/
theorem C88_memory_wrong : ∃ n₀ n₁ n₂ n₃ : Node, Node.start false [] none { noFlags with compressed := some 20 } = some n₀ ∧
    n₀.step (.reserve .compressed 15) = some (n₁, none) ∧ n₁.step (.update 2 (some 5) ⟨true, 0, false, true⟩) = some (n₂, some .internal) ∧
    valueOf n₂.configuration .compressed = some 20 ∧ total n₂.components.compressed = 5 ∧
    n₂.step (.update 2 (some 20) calm) = some (n₃, some .confirmed) ∧ reported n₃.report .compressed = some 20 ∧ total n₃.components.compressed = 5 := by
  refine ⟨(Node.start false [] none { noFlags with compressed := some 20 }).get (by decide +kernel),
    ((((Node.start false [] none { noFlags with compressed := some 20 }).get (by decide +kernel)).step (.reserve .compressed 15)).get (by decide +kernel)).1,
    ((((((Node.start false [] none { noFlags with compressed := some 20 }).get (by decide +kernel)).step (.reserve .compressed 15)).get (by decide +kernel)).1.step
      (.update 2 (some 5) ⟨true, 0, false, true⟩)).get (by decide +kernel)).1,
    ((((((((Node.start false [] none { noFlags with compressed := some 20 }).get (by decide +kernel)).step (.reserve .compressed 15)).get (by decide +kernel)).1.step
      (.update 2 (some 5) ⟨true, 0, false, true⟩)).get (by decide +kernel)).1.step (.update 2 (some 20) calm)).get (by decide +kernel)).1, ?_⟩
  decide +kernel

/-- **C88** is false for memory of `2 ^ 63` bytes: the request is confirmed and written to the file, and the server cannot be started again. -/
theorem C88_not_started : ∃ n₀ n₁ : Node, Node.start false [] none noFlags = some n₀ ∧ n₀.step (.update 0 (some (2 ^ 63)) calm) = some (n₁, some .confirmed) ∧
    n₁.step (.restart [] noFlags) = none := by
  refine ⟨(Node.start false [] none noFlags).get (by decide +kernel),
    (((Node.start false [] none noFlags).get (by decide +kernel)).step (.update 0 (some (2 ^ 63)) calm)).get (by decide +kernel) |>.1, ?_⟩
  decide +kernel

end ModelarDB.Props
