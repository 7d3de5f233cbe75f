import Verif.Lemmas.OpenFolders
/-
C85: a program that has a data folder open is told which tables exist and what their schemas are, whichever programs created and dropped them.
-/
namespace ModelarDB.Props
open Model.OpenFolders Spec.OpenFolders Lemmas.OpenFolders

variable {σ : Type}

/-- **C85** for the names of tables: whatever programs did, one that uses the data folder directly lists each table that exists once and no other. -/
theorem C85_listed (role : Nat → Role) (events : List (Event σ)) (h : Possible role events) (p : Nat) (hp : isOpen p events = true)
    (hrole : role p = .folder) :
    ∃ s, (run role events).session p = some s ∧ (tables (role p) (run role events) s).Nodup ∧
      ∀ name, name ∈ tables (role p) (run role events) s ↔ (existing name events).isSome = true := by
  have hi := inv_run h
  obtain ⟨s, hs, _, _⟩ := hi.session p hp
  have hmem : ∀ n, n ∈ (run role events).disk.seriesRows.map Prod.fst ↔ ∃ x, existing n events = some ⟨.timeSeries, x⟩ := by
    intro n
    rw [← lookup_isSome, hi.disk.series]
    cases he : existing n events with
    | none => simp
    | some d =>
      obtain ⟨kind, x⟩ := d
      cases kind <;> simp
  refine ⟨s, hs, ?_, fun name => ?_⟩
  · rw [hrole]
    refine List.nodup_append.mpr ⟨hi.disk.nodupNormal, hi.disk.nodupSeries, ?_⟩
    intro a ha b hb
    rintro rfl
    obtain ⟨x, hx⟩ := (hi.disk.normal a).mp ha
    obtain ⟨y, hy⟩ := (hmem a).mp hb
    rw [hx] at hy
    cases hy
  · rw [hrole]
    show name ∈ (run role events).disk.normalRows ++ (run role events).disk.seriesRows.map Prod.fst ↔ _
    rw [List.mem_append, hi.disk.normal, hmem]
    cases he : existing name events with
    | none => simp
    | some d =>
      obtain ⟨kind, x⟩ := d
      cases kind <;> simp

/-- **C85** for the names of tables and a server that is up to date with all of them. -/
theorem C85_listed_server_partial (role : Nat → Role) (events : List (Event σ)) (h : Possible role events) (p : Nat)
    (hp : isOpen p events = true) (hrole : role p = .server) (hup : ∀ name, upToDate p name events = true) :
    ∃ s, (run role events).session p = some s ∧ (tables (role p) (run role events) s).Nodup ∧
      ∀ name, name ∈ tables (role p) (run role events) s ↔ (existing name events).isSome = true := by
  obtain ⟨s, hs, hnd, hl⟩ := (inv_run h).session p hp
  refine ⟨s, hs, ?_, fun name => ?_⟩
  · rw [hrole]
    exact hnd
  · rw [hrole]
    show name ∈ s.map Prod.fst ↔ _
    rw [← lookup_isSome, hl name (hup name)]

/-- **C85** for a name that a program is up to date with: it is told the schema of the table, or that there is none, and queries read the table. -/
theorem C85_described_partial (role : Nat → Role) (events : List (Event σ)) (h : Possible role events) (p : Nat) (name : String)
    (hup : upToDate p name events = true) :
    ∃ s, (run role events).session p = some s ∧ schema (role p) (run role events) s name = (existing name events).map (·.schema) ∧
      queried (run role events) s name = existing name events := by
  have hi := inv_run h
  obtain ⟨s, hs, _, hl⟩ := hi.session p (upToDate_open hup)
  have hn := hl name hup
  refine ⟨s, hs, ?_, ?_⟩
  · cases hr : role p with
    | folder =>
      simp only [schema, hn, hi.disk.deltas]
      cases he : existing name events with
      | none => rfl
      | some d =>
        obtain ⟨kind, x⟩ := d
        cases kind <;> rfl
    | server =>
      simp only [schema, hn]
  · unfold queried
    rw [contains_delta hi.disk, hn]
    cases existing name events <;> simp

/-- **C85** for requests: creating a table succeeds exactly if there is none, for names the program is up to date with. -/
theorem C85_create_partial (role : Nat → Role) (events : List (Event σ)) (h : Possible role events) (p : Nat) (name : String) (d : Definition σ)
    (hup : upToDate p name events = true) : (step role (run role events) (.create p name d)).2 = true ↔ existing name events = none :=
  (inv_create (inv_run h) (upToDate_open hup) fun _ => hup).2 hup

/-- **C85** for requests: dropping a table succeeds exactly if there is one. -/
theorem C85_drop (role : Nat → Role) (events : List (Event σ)) (h : Possible role events) (p : Nat) (name : String)
    (hp : isOpen p events = true) (hup : role p = .server → upToDate p name events = true) :
    (step role (run role events) (.drop p name)).2 = true ↔ (existing name events).isSome = true :=
  (inv_drop (inv_run h) hp hup).2

/-- The program of an event. -/
def programOf : Event σ → Nat
  | .start p => p
  | .stop p => p
  | .create p _ _ => p
  | .drop p _ => p

/-- A program that is the only one that uses the data folder is up to date with all names. -/
theorem C85_alone (events : List (Event σ)) (p : Nat) (halone : ∀ e ∈ events, programOf e = p) (hp : isOpen p events = true) (name : String) :
    upToDate p name events = true := by
  induction events with
  | nil => cases hp
  | cons e older ih =>
    have he := halone e (by simp)
    have ih := ih fun x hx => halone x (by simp [hx])
    cases e with
    | start q =>
      unfold upToDate
      exact if_pos he
    | stop q =>
      unfold isOpen at hp
      rw [if_pos (show q = p from he)] at hp
      cases hp
    | create q n d =>
      unfold upToDate
      rw [if_neg fun hc => hc.2 he]
      exact ih hp
    | drop q n =>
      unfold upToDate
      rw [if_neg fun hc => hc.2 he]
      exact ih hp

/-- Programs that use the data folder directly, other than `2`, which is a server. -/
def exampleRole (p : Nat) : Role := if p = 2 then .server else .folder

/-- Two programs, the newest event is the first: `wind` and `solar` are created by `0`, then `1` is started, drops `solar` and creates `sites`. -/
def exampleEvents : List (Event Nat) :=
  [.create 1 "sites" ⟨.normal, 30⟩, .drop 1 "solar", .start 1, .create 0 "solar" ⟨.timeSeries, 20⟩, .create 0 "wind" ⟨.timeSeries, 10⟩, .start 0]

/-- The hypotheses hold: `1` is up to date with all names and `0` with `wind`, but not with `sites` and `solar`. -/
example : Possible exampleRole exampleEvents ∧ isOpen 0 exampleEvents = true ∧ isOpen 1 exampleEvents = true ∧
    upToDate 0 "wind" exampleEvents = true ∧ upToDate 0 "solar" exampleEvents = false ∧ upToDate 0 "sites" exampleEvents = false ∧
    upToDate 1 "wind" exampleEvents = true ∧ upToDate 1 "solar" exampleEvents = true ∧ upToDate 1 "sites" exampleEvents = true ∧
    existing "wind" exampleEvents = some ⟨.timeSeries, 10⟩ ∧ existing "solar" exampleEvents = none ∧
    existing "sites" exampleEvents = some ⟨.normal, 30⟩ := by
  simp only [Possible, exampleEvents]
  decide

/-- A server that is alone. -/
example : Possible exampleRole [Event.create 2 "sites" ⟨.normal, 30⟩, .drop 2 "wind", .create 2 "wind" ⟨.timeSeries, 10⟩, .start 2] ∧
    ∀ e ∈ [Event.create 2 "sites" ⟨.normal, 30⟩, .drop 2 "wind", .create 2 "wind" ⟨.timeSeries, 10⟩, .start 2], programOf e = 2 := by
  simp only [Possible]
  decide

/-- What a program is told and what a query reads. -/
structure Told (σ : Type) where
  tables : List String
  schema : Option σ
  queried : Option (Definition σ)
deriving DecidableEq

/-- What a program is told about a name. -/
def told (role : Nat → Role) (events : List (Event σ)) (p : Nat) (name : String) : Option (Told σ) :=
  ((run role events).session p).map fun s =>
    ⟨tables (role p) (run role events) s, schema (role p) (run role events) s name, queried (run role events) s name⟩

/-- **C85** is false of the code for other names: a time series table that another program creates is listed, but it is said not to be a table when
its schema is requested, and it cannot be queried until the data folder is opened again. -/
theorem C85_created_elsewhere :
    told exampleRole [.create 0 "wind" ⟨.timeSeries, 10⟩, .start 1, .start 0] 1 "wind" = some ⟨["wind"], none, none⟩ ∧
    told exampleRole [.start 1, .create 0 "wind" ⟨.timeSeries, 10⟩, .start 1, .start 0] 1 "wind" =
      some ⟨["wind"], some 10, some ⟨.timeSeries, 10⟩⟩ := by
  decide

/-- A normal table that another program creates is listed and has a schema, so that it can be written to, but cannot be queried. -/
theorem C85_normal_created_elsewhere :
    told exampleRole [.create 0 "sites" ⟨.normal, 30⟩, .start 1, .start 0] 1 "sites" = some ⟨["sites"], some 30, none⟩ := by
  decide

/-- A time series table that another program drops is no longer listed, but its schema is still given. -/
theorem C85_dropped_elsewhere :
    told exampleRole [.drop 0 "wind", .start 1, .create 0 "wind" ⟨.timeSeries, 10⟩, .start 0] 1 "wind" = some ⟨[], some 10, none⟩ := by
  decide

/-- Creating a table that another program dropped fails, but the table exists afterwards. This program is given the schema of the dropped table and
queries use it, other programs use the new one. -/
theorem C85_recreated :
    (step exampleRole (run exampleRole [.drop 0 "wind", .start 1, .create 0 "wind" ⟨.timeSeries, 10⟩, .start 0])
      (.create 1 "wind" ⟨.timeSeries, 99⟩)).2 = false ∧
    told exampleRole [.create 1 "wind" ⟨.timeSeries, 99⟩, .drop 0 "wind", .start 1, .create 0 "wind" ⟨.timeSeries, 10⟩, .start 0] 1 "wind" =
      some ⟨["wind"], some 10, some ⟨.timeSeries, 10⟩⟩ ∧
    told exampleRole [.start 3, .create 1 "wind" ⟨.timeSeries, 99⟩, .drop 0 "wind", .start 1, .create 0 "wind" ⟨.timeSeries, 10⟩, .start 0] 3 "wind" =
      some ⟨["wind"], some 99, some ⟨.timeSeries, 99⟩⟩ := by
  decide

/-- A server does not list a table that a program created in its data folder, and refuses to drop it, but it cannot be created either. -/
theorem C85_server_out_of_date :
    told exampleRole [.create 0 "sites" ⟨.normal, 30⟩, .start 2, .start 0] 2 "sites" = some ⟨[], none, none⟩ ∧
    (step exampleRole (run exampleRole [.create 0 "sites" ⟨.normal, 30⟩, .start 2, .start 0]) (.drop 2 "sites")).2 = false ∧
    (step exampleRole (run exampleRole [.create 0 "sites" ⟨.normal, 30⟩, .start 2, .start 0]) (.create 2 "sites" ⟨.normal, 30⟩)).2 = false := by
  decide

end ModelarDB.Props
