import Verif.Lemmas.TableNames
import Verif.Props.C42
import Mathlib.Data.List.Pairwise
/-
C62: A table is used under the name it was created with.
-/
namespace ModelarDB.Props
open Model Model.TableNames Spec Lemmas

/-- **C62**, partial: after any requests with names that stand for themselves, at a node or with the embedded library, every table is found under its
name, the tables can be listed, and the folder can be opened again with the same tables. -/
theorem C62_named_partial (server : Bool) (ops : List NameOp) (hs : ∀ op ∈ ops, SelfName (nameIn op)) :
    Named (run server emptyNames ops) := by
  have h := registered_run server ops _ registered_empty hs
  refine ⟨fun name hn => ?_, ?_, _, h.opened, fun _ => rfl⟩
  · rw [h.find (h.self name hn), if_pos hn]
  · unfold Folder.canList Folder.has
    rw [h.session, List.all_eq_true]
    intro r hr
    unfold sessionOf
    rw [List.any_append, Bool.or_eq_true]
    left
    rw [List.any_eq_true]
    exact ⟨(r, none), List.mem_map.mpr ⟨r, hr, rfl⟩, by simp⟩

/-- **C62**, partial: after any requests with names that stand for themselves, a further one creates or drops exactly the table it names, or fails and
changes nothing. -/
theorem C62_does_partial (server : Bool) (ops : List NameOp) (hs : ∀ op ∈ ops, SelfName (nameIn op)) (op : NameOp) (hop : SelfName (nameIn op)) :
    Does (run server emptyNames ops) op (perform server (run server emptyNames ops) op) := by
  have h := registered_run server ops _ registered_empty hs
  generalize run server emptyNames ops = f at h
  have h' := h.step server hop
  have hp := perform_registered h server hop
  unfold Does
  cases op with
  | create name =>
    replace hop : SelfName name := hop
    simp only at hp
    by_cases hm : name ∈ f.disk
    · rw [if_pos hm] at hp
      rw [hp]
    · rw [if_neg hm] at hp
      rw [hp] at h' ⊢
      simp only at h' ⊢
      refine ⟨hm, fun n => by simp, ?_, fun n hne hn => ?_⟩
      · rw [h'.find hop, if_pos (by simp)]
      · rw [h'.find hn, h.find hn]
        simp [hne]
  | drop name =>
    replace hop : SelfName name := hop
    simp only at hp
    by_cases hm : name ∈ f.disk
    · rw [if_pos hm] at hp
      rw [hp] at h' ⊢
      simp only at h' ⊢
      refine ⟨hm, fun n => by simp, ?_, fun n hne hn => ?_⟩
      · rw [h'.find hop, if_neg (by simp)]
      · rw [h'.find hn, h.find hn]
        simp [hne]
    · rw [if_neg hm] at hp
      rw [hp]

/-- Names of lower-case letters, digits and underscores that start with a letter or an underscore stand for themselves. -/
theorem C62_self_names (name : List Char) (hp : PlainName name) (hl : ∀ c ∈ name, c.toLower = c) : SelfName name := by
  have ht : Statements.tokenize name = some [Statements.Token.word name none] := by
    have := tokenize_word (rest := []) hp (by rintro c ⟨⟩)
    rw [List.append_nil] at this
    rw [this]
    rfl
  unfold SelfName tableRef
  rw [ht]
  simp only [normalizedPart]
  rw [List.map_congr_left hl, List.map_id']

/-! ### Cases that meet the hypotheses, and where the property is false -/

example : SelfName "wind_1".toList ∧ SelfName "a-b".toList ∧
    (run false emptyNames [.create "wind_1".toList, .create "a-b".toList, .drop "wind_1".toList]).disk = ["a-b".toList] ∧
    (run true emptyNames [.create "wind_1".toList, .create "a-b".toList]).find "a-b".toList = some "a-b".toList := by
  refine ⟨C62_self_names _ (plainName_of (by decide +kernel)) (by decide +kernel), ?_, ?_, ?_⟩
  · unfold SelfName; decide +kernel
  · decide +kernel
  · decide +kernel

theorem registerAll_some : ∀ {session : List (Ref × Option (List Char))} {names : List (List Char)} {s : List (Ref × Option (List Char))},
    registerAll session names = some s → ∀ n ∈ names, (tableRef n).known = true ∧ session.any (·.1 == tableRef n) = false
  | _, [], _, _ => by simp
  | session, name :: names, s, h => by
    rw [registerAll] at h
    cases hr : register session name with
    | none => rw [hr] at h; cases h
    | some session' =>
      rw [hr] at h
      have ih := registerAll_some (session := session') h
      unfold register at hr
      split at hr
      · rename_i hk
        rw [Bool.and_eq_true, Bool.not_eq_true'] at hk
        injection hr with hr
        subst hr
        intro n hn
        rcases List.mem_cons.mp hn with rfl | hn
        · exact hk
        · have := ih n hn
          rw [List.any_append, Bool.or_eq_false_iff] at this
          exact ⟨this.1, this.2.1⟩
      · cases hr

theorem registerAll_different : ∀ {session : List (Ref × Option (List Char))} {names : List (List Char)} {s : List (Ref × Option (List Char))},
    registerAll session names = some s → names.Pairwise fun a b => tableRef a ≠ tableRef b
  | _, [], _, _ => .nil
  | session, name :: names, s, h => by
    rw [registerAll] at h
    cases hr : register session name with
    | none => rw [hr] at h; cases h
    | some session' =>
      rw [hr] at h
      refine .cons (fun b hb heq => ?_) (registerAll_different (session := session') h)
      have := (registerAll_some (session := session') h b hb).2
      unfold register at hr
      split at hr
      · injection hr with hr
        subst hr
        rw [List.any_append, Bool.or_eq_false_iff] at this
        simp [heq] at this
      · cases hr

/-- The schema of a name with a period is the part before it. -/
theorem tableRef_period {a b : List Char} (ha : PlainName a) (hb : PlainName b) :
    tableRef (a ++ '.' :: b) = ⟨"datafusion".toList, a.map Char.toLower, b.map Char.toLower⟩ := by
  have hb' : Statements.tokenize b = some [Statements.Token.word b none] := by
    have := tokenize_word (rest := []) hb (by rintro c ⟨⟩)
    rw [List.append_nil] at this
    rw [this]
    rfl
  have hp : Statements.tokenize ('.' :: b) = some [Statements.Token.period, Statements.Token.word b none] := by
    have : Statements.tokenize ('.' :: b) = (Statements.tokenize b).map (Statements.Token.period :: ·) := by
      unfold Statements.tokenize
      rw [List.length_cons, Statements.tokenizeWith]
      rfl
    rw [this, hb']
    rfl
  have ht : Statements.tokenize (a ++ '.' :: b) = some [Statements.Token.word a none, Statements.Token.period, Statements.Token.word b none] := by
    rw [tokenize_word ha (by rintro c ⟨⟩; decide), hp]
    rfl
  unfold tableRef
  rw [ht]
  rfl

/-- **C62** is false of the code for all identifiers with a period between them, unless the first is the name of a schema: in every folder creating the
table fails but leaves it on disk, and no folder with such a table can be opened. -/
theorem C62_period_all (server : Bool) (a b : List Char) (ha : PlainName a) (hb : PlainName b)
    (hs : a.map Char.toLower ∉ ["public".toList, "metadata".toList]) :
    (∀ f : Folder, a ++ '.' :: b ∉ f.disk → f.has (bare (a ++ '.' :: b)) = false →
      perform server f (.create (a ++ '.' :: b)) = (⟨f.disk ++ [a ++ '.' :: b], f.session⟩, false)) ∧
    ∀ disk, a ++ '.' :: b ∈ disk → openFolder disk = none := by
  have hk : (tableRef (a ++ '.' :: b)).known = false := by
    rw [tableRef_period ha hb]
    simp only [List.mem_cons, List.not_mem_nil, or_false, not_or] at hs
    unfold Ref.known
    simp only [Bool.and_eq_false_iff, Bool.or_eq_false_iff, beq_eq_false_iff_ne]
    exact .inr hs
  refine ⟨fun f hd hh => ?_, fun disk hd => ?_⟩
  · have hc : create f (a ++ '.' :: b) = (⟨f.disk ++ [a ++ '.' :: b], f.session⟩, false) := by
      unfold create register
      rw [if_neg hd, hk]
      rfl
    cases server with
    | false => exact hc
    | true =>
      show serverCreate f _ = _
      unfold serverCreate
      rw [hh]
      exact hc
  · unfold openFolder
    cases hr : registerAll (metadataRefs.map (·, none)) disk with
    | none => rfl
    | some s =>
      have := (registerAll_some hr _ hd).1
      rw [hk] at this
      cases this

/-- **C62** is false of the code for all identifiers that only differ in the case of their letters: a folder with both tables cannot be opened. -/
theorem C62_case_all (a b : List Char) (ha : PlainName a) (hb : PlainName b) (hne : a ≠ b) (hcase : a.map Char.toLower = b.map Char.toLower) (disk : List (List Char))
    (h1 : a ∈ disk) (h2 : b ∈ disk) : openFolder disk = none := by
  have href : ∀ {n : List Char}, PlainName n → tableRef n = bare (n.map Char.toLower) := by
    intro n hn
    have ht : Statements.tokenize n = some [Statements.Token.word n none] := by
      have := tokenize_word (rest := []) hn (by rintro c ⟨⟩)
      rw [List.append_nil] at this
      rw [this]
      rfl
    unfold tableRef
    rw [ht]
    rfl
  unfold openFolder
  cases hr : registerAll (metadataRefs.map (·, none)) disk with
  | none => rfl
  | some s =>
    have hp := registerAll_different hr
    have : Std.Symm fun x y : List Char => tableRef x ≠ tableRef y := ⟨fun _ _ h => Ne.symm h⟩
    have := hp.forall h1 h2 hne
    rw [href ha, href hb, hcase] at this
    exact absurd rfl this

example : PlainName "a".toList ∧ PlainName "b".toList ∧ "a".toList.map Char.toLower ∉ ["public".toList, "metadata".toList] ∧
    PlainName "Foo".toList ∧ PlainName "foo".toList ∧ "Foo".toList.map Char.toLower = "foo".toList.map Char.toLower :=
  ⟨plainName_of (by decide +kernel), plainName_of (by decide +kernel), by decide +kernel, plainName_of (by decide +kernel),
    plainName_of (by decide +kernel), by decide +kernel⟩

/-- **C62** is false of the code for names with periods: creating the table `a.b`, which is a name that SQL accepts, fails but leaves the table on disk,
and then the folder cannot be opened again and the node does not start again. -/
theorem C62_period (server : Bool) : Statements.createdName [] (fun _ => true) ["a.b".toList] = some "a.b".toList ∧
    perform server emptyNames (.create "a.b".toList) = (⟨["a.b".toList], emptyNames.session⟩, false) ∧
    openFolder ["a.b".toList] = none := by
  cases server <;> refine ⟨?_, ?_, ?_⟩ <;> decide +kernel

/-- **C62** is false of the code for names with upper-case letters: if `Foo` exists, creating `foo` in a data folder fails but leaves the table on disk,
and then the folder cannot be opened again. -/
theorem C62_case : (perform false emptyNames (.create "Foo".toList)).2 = true ∧
    (perform false (run false emptyNames [.create "Foo".toList]) (.create "foo".toList)).2 = false ∧
    (run false emptyNames [.create "Foo".toList, .create "foo".toList]).disk = ["Foo".toList, "foo".toList] ∧
    openFolder ["Foo".toList, "foo".toList] = none := by
  refine ⟨?_, ?_, ?_, ?_⟩ <;> decide +kernel

/-- **C62** is false of the code for names with upper-case letters at a node: the table `Foo`, which can be created with a message, cannot be
dropped. -/
theorem C62_case_server : (perform true emptyNames (.create "Foo".toList)).2 = true ∧
    (perform true (run true emptyNames [.create "Foo".toList]) (.drop "Foo".toList)).2 = false := by
  refine ⟨?_, ?_⟩ <;> decide +kernel

/-- **C62** is false of the code for dropping tables that do not exist in a data folder: dropping `Foo` fails, and then `foo` is not found although it is
on disk. -/
theorem C62_failed_drop :
    perform false (run false emptyNames [.create "foo".toList]) (.drop "Foo".toList) = (⟨["foo".toList], emptyNames.session⟩, false) ∧
    (run false emptyNames [.create "foo".toList]).find "foo".toList = some "foo".toList ∧
    (run false emptyNames [.create "foo".toList, .drop "Foo".toList]).find "foo".toList = none := by
  refine ⟨?_, ?_, ?_⟩ <;> decide +kernel

/-- **C62** is false of the code for the names of metadata tables: dropping `metadata.normal_table_metadata` in a data folder fails, and then the tables
cannot be listed. -/
theorem C62_metadata : (perform false emptyNames (.drop "metadata.normal_table_metadata".toList)).2 = false ∧ emptyNames.canList = true ∧
    (run false emptyNames [.drop "metadata.normal_table_metadata".toList]).canList = false := by
  refine ⟨?_, ?_, ?_⟩ <;> decide +kernel

end ModelarDB.Props
