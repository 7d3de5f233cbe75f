import Verif.Model.Configuration
/-
C29: Configuration precedence and validity.
-/
namespace ModelarDB.Props
open Model.Configuration

/-- The value of the first place that has one: command line, file, default. -/
def firstOf {τ : Type} (places : List (Option τ)) : Option τ := places.findSome? id

/-- What the documentation promises for a setting: the command line, else the file, else the default, where `none` is a setting
without a value. -/
def promised {τ : Type} (arg file : Option τ) (default : τ) : τ := (firstOf [arg, file]).getD default

/-- All keys of the file that must have a value have one. -/
def File.complete (f : File) : Bool :=
  f.ingested.isSome && f.uncompressed.isSome && f.compressed.isSome && f.segmentSize.isSome && f.ingestionThreads.isSome &&
    f.compressionThreads.isSome && f.writerThreads.isSome && f.walEnabled.isSome

private theorem parse_isSome {f : File} {c : Configuration} (h : Configuration.parse f = some c) : f = c.print := by
  obtain ⟨f1, f2, f3, f4, f5, f6, f7, f8, f9, f10⟩ := f
  cases f1 <;> cases f2 <;> cases f3 <;> cases f6 <;> cases f7 <;> cases f8 <;> cases f9 <;> cases f10 <;>
    first | (cases h; rfl) | cases h

private theorem parse_print (c : Configuration) : Configuration.parse c.print = some c := rfl

/-- C29 without a file: every setting is taken from the command line and else is the default. -/
theorem C29_no_file (args : Args) : ∃ c, load none args = some (c, c.print) ∧
    c.ingested = args.ingested.getD 536870912 ∧ c.uncompressed = args.uncompressed.getD 536870912 ∧
    c.compressed = args.compressed.getD 536870912 ∧ c.transferBatchSize = some (args.transferBatchSize.getD 67108864) ∧
    c.transferTime = args.transferTime ∧ c.segmentSize = args.segmentSize.getD 67108864 ∧
    c.ingestionThreads = 1 ∧ c.compressionThreads = 1 ∧ c.writerThreads = 1 ∧ c.walEnabled = args.walEnabled.getD true := by
  refine ⟨Configuration.default.update args, by simp [load, Configuration.validate, Configuration.update, Configuration.default], ?_⟩
  obtain ⟨a1, a2, a3, a4, a5, a6, a7⟩ := args
  refine ⟨?_, ?_, ?_, ?_, ?_, ?_, rfl, rfl, rfl, ?_⟩
  · cases a1 <;> simp [Configuration.update, Configuration.default]
  · cases a2 <;> simp [Configuration.update, Configuration.default]
  · cases a3 <;> simp [Configuration.update, Configuration.default]
  · cases a4 <;> simp [Configuration.update, Configuration.default]
  · cases a5 <;> rfl
  · cases a6 <;> simp [Configuration.update, Configuration.default]
  · cases a7 <;> rfl

/-- C29 with a file, as far as it holds: if the server starts, every setting that must have a value is the first of the command line, the
file and the default that is given, the other settings are the first of the command line and the file, the number of threads is
one, and the configuration is written to the file. What is missing: a setting that is not in the file should have its
default, but `C29_absent_setting` shows that the server does not start or uses no value. -/
theorem C29_precedence_partial {f : File} {args : Args} {c : Configuration} {f' : File} (h : load (some f) args = some (c, f')) :
    c.ingested = promised args.ingested f.ingested Configuration.default.ingested ∧
    c.uncompressed = promised args.uncompressed f.uncompressed Configuration.default.uncompressed ∧
    c.compressed = promised args.compressed f.compressed Configuration.default.compressed ∧
    c.segmentSize = promised args.segmentSize f.segmentSize Configuration.default.segmentSize ∧
    c.walEnabled = promised args.walEnabled f.walEnabled Configuration.default.walEnabled ∧
    c.transferBatchSize = firstOf [args.transferBatchSize, f.transferBatchSize] ∧
    c.transferTime = firstOf [args.transferTime, f.transferTime] ∧
    (c.ingestionThreads = 1 ∧ c.compressionThreads = 1 ∧ c.writerThreads = 1) ∧ f' = c.print := by
  unfold load at h
  simp only [Option.bind_eq_bind, Option.bind_eq_some_iff] at h
  obtain ⟨c₀, h1, h2⟩ := h
  have hf := parse_isSome h1
  subst hf
  split at h2
  · next hv =>
    simp only [Option.some.injEq, Prod.mk.injEq] at h2
    obtain ⟨rfl, rfl⟩ := h2
    have ht : c₀.ingestionThreads = 1 ∧ c₀.compressionThreads = 1 ∧ c₀.writerThreads = 1 := by
      simpa [Configuration.validate, Configuration.update, and_assoc] using hv
    obtain ⟨a1, a2, a3, a4, a5, a6, a7⟩ := args
    refine ⟨?_, ?_, ?_, ?_, ?_, ?_, ?_, ht, rfl⟩
    · cases a1 <;> rfl
    · cases a2 <;> rfl
    · cases a3 <;> rfl
    · cases a6 <;> rfl
    · cases a7 <;> rfl
    · cases a4 <;> simp [Configuration.update, Configuration.print, firstOf] <;> (cases c₀.transferBatchSize <;> rfl)
    · cases a5 <;> simp [Configuration.update, Configuration.print, firstOf] <;> (cases c₀.transferTime <;> rfl)
  · cases h2

/-- C29, exactly the files that give every value that is needed and one thread per component are accepted, whatever the command line
says. -/
theorem C29_accepted_iff (f : File) (args : Args) :
    (load (some f) args).isSome ↔ File.complete f = true ∧ f.ingestionThreads = some 1 ∧ f.compressionThreads = some 1 ∧
      f.writerThreads = some 1 := by
  obtain ⟨f1, f2, f3, f4, f5, f6, f7, f8, f9, f10⟩ := f
  cases f1 <;> cases f2 <;> cases f3 <;> cases f6 <;> cases f7 <;> cases f8 <;> cases f9 <;> cases f10 <;>
    simp [load, Configuration.parse, File.complete, Configuration.validate, Configuration.update]
  grind

/-- C29, a restart without flags keeps the configuration. -/
theorem C29_restart_keeps {file : Option File} {args : Args} {c : Configuration} {f : File} (h : load file args = some (c, f)) :
    load (some f) ⟨none, none, none, none, none, none, none⟩ = some (c, f) := by
  have key : ∀ c₀ : Configuration, (if (c₀.update args).validate then some (c₀.update args, (c₀.update args).print) else none) = some (c, f) →
      load (some f) ⟨none, none, none, none, none, none, none⟩ = some (c, f) := by
    intro c₀ h2
    split at h2
    · next hv =>
      simp only [Option.some.injEq, Prod.mk.injEq] at h2
      obtain ⟨rfl, rfl⟩ := h2
      simp only [load, parse_print, Option.bind_eq_bind, Option.bind_some]
      exact if_pos hv
    · cases h2
  cases file with
  | none => exact key Configuration.default h
  | some file =>
    simp only [load, Option.bind_eq_bind, Option.bind_eq_some_iff] at h
    obtain ⟨c₀, _, h2⟩ := h
    exact key c₀ h2

example : load (some { Configuration.default.print with ingested := some 7, transferBatchSize := none })
    ⟨none, some 8, none, none, some 9, none, some false⟩ =
    some (let c : Configuration := ⟨7, 8, 536870912, none, some 9, 67108864, 1, 1, 1, false⟩; (c, c.print)) := by decide +kernel

/-- C29 is false if a setting is not in the file: the server does not start, or runs without a transfer batch size although the default
has one. -/
theorem C29_absent_setting :
    load (some { Configuration.default.print with ingested := none }) ⟨none, none, none, none, none, none, none⟩ = none ∧
    (load (some { Configuration.default.print with transferBatchSize := none }) ⟨none, none, none, none, none, none, none⟩).map
      (fun x => x.1.transferBatchSize) = some none ∧ Configuration.default.transferBatchSize = some 67108864 := by decide +kernel

/-- C29 is false: a configuration that cannot be used is accepted and written to the file, and the server panics when it creates the
memory pool. -/
theorem C29_invalid_accepted : ∃ c f, load none ⟨some (2 ^ 63), none, none, none, none, none, none⟩ = some (c, f) ∧
    (Server.start c : Option (Server Nat)) = none := by
  refine ⟨((load none ⟨some (2 ^ 63), none, none, none, none, none, none⟩).get (by decide +kernel)).1,
    ((load none ⟨some (2 ^ 63), none, none, none, none, none, none⟩).get (by decide +kernel)).2, ?_⟩
  decide +kernel

end ModelarDB.Props
