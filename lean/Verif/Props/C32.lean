import Verif.Props.C30
import Verif.Lemmas.Within
/-
C32: Only valid error bounds are accepted.
-/
namespace ModelarDB.Props
open Model Model.TableDefinition Model.DataFolder Spec Lemmas

/-- All floats are proper. -/
theorem proper_ofBits (b : Nat) : Spec.Proper (FVal.ofBits32 b) := by
  cases h : FVal.ofBits32 b with
  | fin s q => exact (mag32_ofBits b h).nonneg
  | _ => trivial

/-- **C32** for SQL, partial: for every float, a field with an error bound is accepted exactly if the number is not positive, which gives
a lossless field, or is a meaningful error bound, which is then used. -/
theorem C32_sql_partial {ε : Type} (name : String) (bits : Nat) (relative : Bool) (b : ErrorBound) :
    (SqlColumn.fieldBound (ε := ε) name (FVal.ofBits32 bits) relative).bound = .ok b ↔
      ((FVal.fin false 0).lt (FVal.ofBits32 bits) = false ∧ b = .lossless) ∨
      ((FVal.fin false 0).lt (FVal.ofBits32 bits) = true ∧
        b = (if relative then .relative (FVal.ofBits32 bits) else .absolute (FVal.ofBits32 bits)) ∧ Meaningful b) := by
  have hp := proper_ofBits bits
  generalize FVal.ofBits32 bits = v at hp
  constructor
  · intro h
    have hm := sqlBound_meaningful (c := .fieldBound (ε := ε) name v relative) hp h
    simp only [SqlColumn.bound] at h
    cases hlt : (FVal.fin false 0).lt v with
    | false =>
      rw [hlt] at h
      injection h with h
      exact .inl ⟨rfl, h.symm⟩
    | true =>
      rw [hlt] at h
      simp only [if_true] at h
      refine .inr ⟨rfl, ?_, hm⟩
      split at h
      · rename_i b' hb
        injection h with h
        subst h
        cases relative with
        | true =>
          simp only [if_true] at hb ⊢
          unfold ErrorBound.tryNewRelative at hb
          split at hb
          · cases hb
          · injection hb with hb
            exact hb.symm
        | false =>
          simp only [Bool.false_eq_true, if_false] at hb ⊢
          unfold ErrorBound.tryNewAbsolute at hb
          split at hb
          · cases hb
          · injection hb with hb
            exact hb.symm
      · cases h
  · rintro (⟨h1, rfl⟩ | ⟨h1, rfl, hm⟩)
    · simp [SqlColumn.bound, h1]
    · cases relative with
      | true =>
        simp only [if_true] at hm ⊢
        simp [SqlColumn.bound, h1, (meaningful_relative hm).2]
      | false =>
        simp only [Bool.false_eq_true, if_false] at hm ⊢
        simp [SqlColumn.bound, h1, (meaningful_absolute hm).2]

/-- **C32** for the embedded C interface, partial: for every float, what is accepted is meaningful. Zero is not accepted and the process
ends. -/
theorem C32_capi_partial (bits : Nat) (b : ErrorBound) (h : capiBound (FVal.ofBits32 bits) = .ok b) : Meaningful b ∧ b ≠ .lossless := by
  have hp := proper_ofBits bits
  generalize FVal.ofBits32 bits = v at hp h
  have hn : Spec.Proper v.neg := by cases v <;> exact hp
  unfold capiBound at h
  split at h
  · split at h
    · rename_i hb
      injection h with h
      subst h
      refine ⟨meaningful_of_relative hn hb, ?_⟩
      rintro rfl
      unfold ErrorBound.tryNewRelative at hb
      split at hb <;> cases hb
    · cases h
  · split at h
    · rename_i hb
      injection h with h
      subst h
      refine ⟨meaningful_of_absolute hp hb, ?_⟩
      rintro rfl
      unfold ErrorBound.tryNewAbsolute at hb
      split at hb <;> cases hb
    · cases h

/-- **C32** for the embedded C interface, exactly: for every float, a number is an absolute error bound and the negative of a number a relative
one, and they are accepted exactly if they are meaningful. For all other floats the process ends. -/
theorem C32_capi_iff (bits : Nat) :
    (∀ b, capiBound (FVal.ofBits32 bits) = .ok b ↔
      (b = .absolute (FVal.ofBits32 bits) ∨ b = .relative (FVal.ofBits32 bits).neg) ∧ Meaningful b) ∧
    ((∀ b, capiBound (FVal.ofBits32 bits) ≠ .ok b) → capiBound (FVal.ofBits32 bits) = .error .panic) := by
  refine ⟨fun b => ⟨fun h => ⟨?_, (C32_capi_partial bits b h).1⟩, ?_⟩, fun h => ?_⟩
  · generalize FVal.ofBits32 bits = v at h
    unfold capiBound ErrorBound.tryNewAbsolute ErrorBound.tryNewRelative at h
    split at h
    · split at h
      · next hb =>
        split at hb <;> cases hb
        cases h
        exact .inr rfl
      · cases h
    · split at h
      · next hb =>
        split at hb <;> cases hb
        cases h
        exact .inl rfl
      · cases h
  · generalize FVal.ofBits32 bits = v
    rintro ⟨rfl | rfl, hm⟩
    · unfold capiBound
      have ht := (meaningful_absolute hm).2
      obtain ⟨q, rfl, hq⟩ := hm
      have h1 : ¬ q < 0 := not_lt.mpr hq.le
      rw [if_neg (by simp [FVal.lt, FVal.signed, h1]), ht]
    · unfold capiBound
      have ht := (meaningful_relative hm).2
      obtain ⟨q, hv, hq, _⟩ := hm
      have hv' : v = .fin true q := by
        cases v with
        | nan => cases hv
        | inf s => cases hv
        | fin s p =>
          simp only [FVal.neg, FVal.fin.injEq, Bool.not_eq_eq_eq_not, Bool.not_false] at hv
          rw [hv.1, hv.2]
      rw [if_pos (by rw [hv']; simp [FVal.lt, FVal.signed, hq]), ht]
  · generalize FVal.ofBits32 bits = v at h
    unfold capiBound at h ⊢
    split
    · next hl =>
      rw [if_pos hl] at h
      split
      · next hb => rw [hb] at h; exact absurd rfl (h _)
      · rfl
    · next hl =>
      rw [if_neg hl] at h
      split
      · next hb => rw [hb] at h; exact absurd rfl (h _)
      · rfl

/-- Zero, which could stand for lossless, is a panic. -/
theorem C32_capi_zero_panics : capiBound (FVal.ofBits32 0) = .error .panic := by decide +kernel

theorem setAt_mem {τ : Type} {l l' : List τ} {i : Int} {x y : τ} (h : setAt l i x = .ok l') (hy : y ∈ l') : y ∈ l ∨ y = x := by
  unfold setAt at h
  split at h
  · injection h with h
    subst h
    exact List.mem_or_eq_of_mem_set hy
  · cases h

theorem boundsOfRows_meaningful {ε : Type} : ∀ (rows : List (FieldRow ε)) (l l' : List ErrorBound),
    (∀ r ∈ rows, Spec.Proper r.value) → (∀ b ∈ l, Meaningful b) → boundsOfRows rows l = .ok l' → ∀ b ∈ l', Meaningful b
  | [], l, l', _, hl, h => by
    injection h with h
    subst h
    exact hl
  | r :: rs, l, l', hr, hl, h => by
    rw [boundsOfRows] at h
    have ih := fun l₁ h₁ => boundsOfRows_meaningful rs l₁ l' (fun r hr' => hr r (List.mem_cons_of_mem _ hr')) h₁
    have hp := hr r List.mem_cons_self
    split at h
    · split at h
      · cases h
      · rename_i b hb
        have hbm : Meaningful b := by
          cases hrel : r.relative with
          | true =>
            rw [hrel] at hb
            exact meaningful_of_relative hp hb
          | false =>
            rw [hrel] at hb
            exact meaningful_of_absolute hp hb
        split at h
        · rename_i l₁ hl₁
          refine ih l₁ ?_ h
          intro b' hb'
          rcases setAt_mem hl₁ hb' with h' | rfl
          · exact hl b' h'
          · exact hbm
        · cases h
    · exact ih l hl h

/-- **C32** for the metadata tables, partial: whatever the rows are, all error bounds of a table that is loaded are meaningful. -/
theorem C32_reload_partial {ε : Type} (env : Env ε) (d : Disk ε) (table : String) (schema : List Column) (m : Metadata ε)
    (hp : ∀ r ∈ d.fieldRows, ∃ bits, r.value = FVal.ofBits32 bits) (h : loadTable env d table schema = .ok m) :
    ∀ b ∈ m.errorBounds, Meaningful b := by
  unfold loadTable at h
  simp only [bind, Except.bind] at h
  cases hr : selectFieldRows d table with
  | error e => rw [hr] at h; cases h
  | ok rows =>
    rw [hr] at h
    dsimp only at h
    cases hb : boundsOfRows rows (List.replicate schema.length .lossless) with
    | error e => rw [hb] at h; cases h
    | ok bs =>
      rw [hb] at h
      dsimp only at h
      cases hu : uniqueNames schema with
      | false => rw [hu] at h; cases h
      | true =>
        rw [hu] at h
        simp only [Bool.not_true, Bool.false_eq_true, if_false] at h
        cases hg : generatedOfRows env schema rows (List.replicate schema.length none) with
        | error e => rw [hg] at h; cases h
        | ok gs =>
          rw [hg] at h
          change tryNew table schema bs gs = .ok m at h
          have hcon := consistent_of_tryNew h
          have hrows : ∀ r ∈ rows, Spec.Proper r.value := by
            intro r hrr
            unfold selectFieldRows at hr
            split at hr
            · cases hr
            · injection hr with hr
              subst hr
              obtain ⟨bits, hbits⟩ := hp r (List.mem_of_mem_filter hrr)
              rw [hbits]
              exact proper_ofBits bits
          have hall := boundsOfRows_meaningful rows _ _ hrows (by
            intro b hb
            rw [List.eq_of_mem_replicate hb]
            trivial) hb
          intro b hb
          obtain ⟨j, hj⟩ := List.mem_iff_getElem?.mp hb
          have hjl : j < m.querySchemaToSchema.length := by
            rw [← hcon.length.2]
            exact (List.getElem?_eq_some_iff.mp hj).1
          obtain ⟨hi, -, hbi⟩ := hcon.column j _ (List.getElem?_eq_getElem hjl)
          rw [hj] at hbi
          exact hall b (List.mem_of_getElem? hbi.symm)

/-- **C32**, accepted again: for every table that is created with SQL, whatever else is created and dropped with SQL, the error bounds
are accepted again when the server starts and are the same. Names with quotes are excluded, see `C30_quote_prevents_start`,
and names that do not stand for themselves, see `C30_period_prevents_start`. -/
theorem C32_sql_accepted_again_partial {ε : Type} (env env' : Env ε) (henv : ∀ e, (env.refs e).Perm (env'.refs e))
    (ops : List (FolderOp ε)) (d : Disk ε) (hrun : folderRun emptyFolder ops = some d)
    (hs : ∀ m ∈ created ops, ∃ name columns, '\'' ∉ name.toList ∧ SelfName name.toList ∧ (∀ c ∈ columns, SqlColumn.Proper c) ∧
      createFromSql env name columns = .ok m)
    (hn : ∀ t ∈ createdNormal ops, SelfName t.toList) :
    ∃ ts, start env' d = .ok (normalTablesAfter [] ops, ts) ∧
      List.Forall₂ (fun m m' => m'.name = m.name ∧ m'.errorBounds = m.errorBounds) (tablesAfter [] ops) ts := by
  obtain ⟨ts, h1, h2⟩ := C30_restart_partial env env' henv ops d hrun (fun m hm => by
    obtain ⟨name, columns, h1, h0, h2, h3⟩ := hs m hm
    exact C30_sql_storable env name columns h2 h1 h0 m h3) hn
  refine ⟨ts, h1, h2.imp ?_⟩
  intro m m' h
  rw [h.1]
  exact ⟨rfl, rfl⟩

/-! ### Messages -/

/-- A message that asks for a table with a field with an error bound. -/
def boundMessage (type : BoundType) (bits : Nat) : Message (List String) :=
  ⟨"t", [⟨"ts", .timestamp, false⟩, ⟨"v", .value, false⟩], [(.lossless, .fin false 0), (type, FVal.ofBits32 bits)], [none, none]⟩

/-- The error bounds of a table that is asked for with a message. -/
def messageBounds (type : BoundType) (bits : Nat) : Option (List ErrorBound) :=
  match deserialize listEnv (boundMessage type bits) with
  | .ok m => some m.errorBounds
  | .error _ => none

/-- **C32** is false for messages: any float is accepted as an absolute or relative error bound. -/
theorem C32_message_accepts_everything (bits : Nat) :
    messageBounds .absolute bits = some [.lossless, .absolute (FVal.ofBits32 bits)] ∧
      messageBounds .relative bits = some [.lossless, .relative (FVal.ofBits32 bits)] := ⟨rfl, rfl⟩

/-- Among them are NaN, -1, infinity and 200 percent, which are not meaningful. -/
theorem C32_not_meaningful : ¬Meaningful (.absolute (FVal.ofBits32 0x7fc00000)) ∧ ¬Meaningful (.absolute (FVal.ofBits32 0xbf800000)) ∧
    ¬Meaningful (.absolute (FVal.ofBits32 0x7f800000)) ∧ ¬Meaningful (.relative (FVal.ofBits32 0x43480000)) := by
  refine ⟨?_, ?_, ?_, ?_⟩
  · rintro ⟨q, h, -⟩
    rw [show FVal.ofBits32 0x7fc00000 = .nan by decide +kernel] at h
    cases h
  · rintro ⟨q, h, -⟩
    rw [show FVal.ofBits32 0xbf800000 = .fin true 1 by decide +kernel] at h
    cases h
  · rintro ⟨q, h, -⟩
    rw [show FVal.ofBits32 0x7f800000 = .inf false by decide +kernel] at h
    cases h
  · rintro ⟨q, h, -, hq⟩
    rw [show FVal.ofBits32 0x43480000 = .fin false 200 by decide +kernel] at h
    injection h with _ h
    rw [← h] at hq
    norm_num at hq

/-- They are not accepted again: after one of these tables is created the server does not start again. -/
theorem C32_message_prevents_start :
    restarted listEnv (deserialize listEnv (boundMessage .absolute 0x7fc00000)) = some (.error .error) ∧
      restarted listEnv (deserialize listEnv (boundMessage .absolute 0xbf800000)) = some (.error .error) ∧
      restarted listEnv (deserialize listEnv (boundMessage .absolute 0x7f800000)) = some (.error .error) ∧
      restarted listEnv (deserialize listEnv (boundMessage .relative 0x43480000)) = some (.error .error) := by
  refine ⟨?_, ?_, ?_, ?_⟩ <;> decide +kernel

theorem boundsOfRows_bad {ε : Type} {r : FieldRow ε} (hz : r.value.eq (.fin false 0) = false)
    (hb : (if r.relative then ErrorBound.tryNewRelative r.value else ErrorBound.tryNewAbsolute r.value) = none) :
    ∀ (rows : List (FieldRow ε)) (l l' : List ErrorBound), r ∈ rows → boundsOfRows rows l ≠ .ok l'
  | [], _, _, h => by cases h
  | x :: rows, l, l', h => by
    intro he
    rw [boundsOfRows] at he
    rcases List.mem_cons.mp h with rfl | h
    · rw [hz, hb] at he
      cases he
    · split at he
      · split at he
        · cases he
        · split at he
          · exact boundsOfRows_bad hz hb rows _ _ h he
          · cases he
      · exact boundsOfRows_bad hz hb rows _ _ h he

theorem mem_fieldRows {ε : Type} (m : Metadata ε) {c : Column} (ht : c.type = .value) : ∀ (cs : List Column) (i : Nat), c ∈ cs →
    ∃ r ∈ fieldRows m i cs, r.value = (savedBound m c).1 ∧ r.relative = (savedBound m c).2
  | [], _, h => by cases h
  | x :: cs, i, h => by
    rw [fieldRows]
    rcases List.mem_cons.mp h with rfl | h
    · rw [if_pos ht]
      exact ⟨_, List.mem_cons_self, rfl, rfl⟩
    · obtain ⟨r, hr, h'⟩ := mem_fieldRows m ht cs (i + 1) h
      split
      · exact ⟨r, List.mem_cons_of_mem _ hr, h'⟩
      · exact ⟨r, hr, h'⟩

theorem mapM_ok_mem {τ σ : Type} {f : τ → Except Failure σ} : ∀ {l : List τ} {ys : List σ}, l.mapM f = .ok ys → ∀ x ∈ l, ∃ y, f x = .ok y
  | [], _, _, _, h => by cases h
  | a :: l, ys, hm, x, h => by
    rw [List.mapM_cons] at hm
    simp only [bind, Except.bind] at hm
    cases ha : f a with
    | error e => rw [ha] at hm; cases hm
    | ok y =>
      rw [ha] at hm
      dsimp only at hm
      cases hl : l.mapM f with
      | error e => rw [hl] at hm; cases hm
      | ok zs =>
        rcases List.mem_cons.mp h with rfl | h
        · exact ⟨y, ha⟩
        · exact mapM_ok_mem hl x h

/-- **C32** is false for messages: a table with an error bound that is neither zero nor meaningful, which messages can create, prevents that the server
starts until it is dropped, whatever else is created and dropped. -/
theorem C32_never_starts {ε : Type} (env : Env ε) (ops : List (FolderOp ε)) (d : Disk ε) (hrun : folderRun emptyFolder ops = some d)
    (m : Metadata ε) (hm : m ∈ tablesAfter [] ops) (hq : '\'' ∉ m.name.toList) (c : Column) (hc : c ∈ m.querySchema) (ht : c.type = .value)
    (i bits : Nat) (hi : indexOf m.schema c.name = some i) (b : ErrorBound) (hb : m.errorBounds[i]? = some b)
    (hv : b = .absolute (FVal.ofBits32 bits) ∨ b = .relative (FVal.ofBits32 bits)) (hz : (FVal.ofBits32 bits).eq (.fin false 0) = false)
    (hbad : ¬ Meaningful b) : ∀ tables, start env d ≠ .ok tables := by
  intro tables hs
  have hok := folderOk_empty.run hrun
  have hp := proper_ofBits bits
  obtain ⟨r, hr, hr1, hr2⟩ := mem_fieldRows m ht m.querySchema 0 hc
  have hnone : r.value.eq (.fin false 0) = false ∧
      (if r.relative then ErrorBound.tryNewRelative r.value else ErrorBound.tryNewAbsolute r.value) = none := by
    unfold savedBound at hr1 hr2
    rw [hi] at hr1 hr2
    dsimp only at hr1 hr2
    rw [hb] at hr1 hr2
    rcases hv with rfl | rfl
    · dsimp only at hr1 hr2
      rw [hr1, hr2]
      refine ⟨hz, ?_⟩
      cases hn : ErrorBound.tryNewAbsolute (FVal.ofBits32 bits) with
      | none => rfl
      | some b' =>
        have hmean := meaningful_of_absolute hp hn
        unfold ErrorBound.tryNewAbsolute at hn
        split at hn <;> cases hn
        exact absurd hmean hbad
    · dsimp only at hr1 hr2
      rw [hr1, hr2]
      refine ⟨hz, ?_⟩
      cases hn : ErrorBound.tryNewRelative (FVal.ofBits32 bits) with
      | none => rfl
      | some b' =>
        have hmean := meaningful_of_relative hp hn
        unfold ErrorBound.tryNewRelative at hn
        split at hn <;> cases hn
        exact absurd hmean hbad
  have hrow : r ∈ d.fieldRows.filter fun r => r.table.toList = m.name.toList := by
    rw [← hok.fields m hm, List.mem_filter] at hr
    rw [List.mem_filter]
    refine ⟨hr.1, ?_⟩
    have := of_decide_eq_true hr.2
    rw [this]
    simp
  have hload : ∃ y, loadTable env d m.name m.querySchema = .ok y := by
    unfold start at hs
    simp only [bind, Except.bind] at hs
    split at hs
    · cases hs
    · cases hl : loadTables env d with
      | error e => rw [hl] at hs; cases hs
      | ok ts =>
        unfold loadTables at hl
        rw [hok.rows] at hl
        exact mapM_ok_mem hl (m.name, m.querySchema) (List.mem_map.mpr ⟨m, hm, rfl⟩)
  obtain ⟨y, hy⟩ := hload
  unfold loadTable selectFieldRows at hy
  rw [literal_of_noQuote _ hq] at hy
  simp only [bind, Except.bind] at hy
  cases hbs : boundsOfRows (d.fieldRows.filter fun r => r.table.toList = m.name.toList) (List.replicate m.querySchema.length .lossless) with
  | error e => rw [hbs] at hy; cases hy
  | ok bs => exact boundsOfRows_bad hnone.1 hnone.2 _ _ _ hrow hbs

/-- Such a table: the error bound of the field is infinity. -/
example : ∃ m d, deserialize listEnv (boundMessage .absolute 0x7f800000) = .ok m ∧ folderRun emptyFolder [.create m] = some d ∧
    m ∈ tablesAfter [] [.create m] ∧ '\'' ∉ m.name.toList ∧ (⟨"v", .value, false⟩ : Column) ∈ m.querySchema ∧ indexOf m.schema "v" = some 1 ∧
    m.errorBounds[1]? = some (.absolute (FVal.ofBits32 0x7f800000)) ∧ (FVal.ofBits32 0x7f800000).eq (.fin false 0) = false ∧
    ¬ Meaningful (.absolute (FVal.ofBits32 0x7f800000)) :=
  ⟨_, _, rfl, rfl, List.mem_singleton.mpr rfl, by decide, by decide, by decide, by decide, by decide +kernel, C32_not_meaningful.2.2.1⟩

/-- An absolute error bound of zero is accepted and is a lossless one after a restart. -/
theorem C32_zero_changes : messageBounds .absolute 0 = some [.lossless, .absolute (FVal.ofBits32 0)] ∧
    (restarted listEnv (deserialize listEnv (boundMessage .absolute 0))).map (fun r => r.map fun r => r.2.map (·.errorBounds)) =
      some (.ok [[.lossless, .lossless]]) := by
  refine ⟨rfl, ?_⟩
  decide +kernel

/-- In SQL the float after 100 is not accepted as a percentage, 100 is, and zero is lossless. -/
example : (SqlColumn.fieldBound (ε := Unit) "v" (FVal.ofBits32 0x42c80001) true).bound = .error .error ∧
    (SqlColumn.fieldBound (ε := Unit) "v" (FVal.ofBits32 0x42c80000) true).bound = .ok (.relative (.fin false 100)) ∧
    (SqlColumn.fieldBound (ε := Unit) "v" (FVal.ofBits32 0) true).bound = .ok .lossless := by
  decide +kernel

/-- In C -5 stands for 5 percent. -/
example : capiBound (FVal.ofBits32 0xc0a00000) = .ok (.relative (.fin false 5)) := by decide +kernel

end ModelarDB.Props
