import Verif.Model.TableFiles
import Mathlib.Tactic.Tauto
/-
C55: Dropping a table leaves the other tables.
-/
namespace ModelarDB.Props
open Model.TableFiles

theorem mem_deleteTableFiles {root : List Char} {store : List Path} {t : String} {p : Path} :
    p ∈ deleteTableFiles root store t ↔ p ∈ store ∧ ¬folder root t <+: p := by
  unfold deleteTableFiles list
  simp only [List.mem_filter, Bool.not_eq_true', ← Bool.not_eq_true, List.contains_iff_mem, List.isPrefixOf_iff_prefix]
  constructor
  · rintro ⟨h1, h2⟩
    exact ⟨h1, fun h => h2 ⟨h1, h⟩⟩
  · rintro ⟨h1, h2⟩
    exact ⟨h1, fun h => h2 h.2⟩

theorem splitOn_of_noSlash {l : List Char} (h : '/' ∉ l) : l.splitOn '/' = [l] :=
  List.splitOnP_eq_singleton (by
    intro c hc
    by_contra hb
    have : c = '/' := by simpa using hb
    exact h (this ▸ hc))

theorem not_prefix_of_noSlash {root : List Char} {t u : String} (ht : '/' ∉ t.toList) (hu : '/' ∉ u.toList) (hne : t ≠ u) (f : Path) :
    ¬folder root t <+: folder root u ++ f := by
  unfold folder
  rw [splitOn_of_noSlash ht, splitOn_of_noSlash hu]
  rintro ⟨r, hr⟩
  simp only [List.cons_append, List.nil_append, List.cons.injEq, true_and] at hr
  exact hne (String.toList_inj.mp hr.1)

/-- The table of a request. -/
def tableOf : Op → String
  | .write t _ => t
  | .drop t => t

/-- **C55**, partial. Whatever is written to and dropped from tables without a slash in their names, a file is there if and only if it
was there before or was written, and its table was not dropped since. Missing: names with a slash, see below. -/
theorem C55_other_tables_kept_partial (root : List Char) (store : List Path) (ops : List Op)
    (hops : ∀ op ∈ ops, '/' ∉ (tableOf op).toList) (table : String) (ht : '/' ∉ table.toList) (f : Path)
    (hnodrop : Op.drop table ∉ ops) :
    folder root table ++ f ∈ run root store ops ↔ folder root table ++ f ∈ store ∨ Op.write table f ∈ ops := by
  induction ops generalizing store with
  | nil => simp [run]
  | cons op ops ih =>
    have ih := ih (step root store op) (fun o ho => hops o (List.mem_cons_of_mem _ ho))
      (fun h => hnodrop (List.mem_cons_of_mem _ h))
    show folder root table ++ f ∈ run root (step root store op) ops ↔ _
    rw [ih]
    have hop := hops op List.mem_cons_self
    cases op with
    | write u g =>
      simp only [step, List.mem_append, List.mem_cons, Op.write.injEq]
      have : folder root table ++ f = folder root u ++ g ↔ table = u ∧ f = g := by
        constructor
        · intro h
          have hu : table = u := by
            by_contra hne
            exact not_prefix_of_noSlash ht hop hne g ⟨f, h⟩
          subst hu
          exact ⟨rfl, List.append_cancel_left h⟩
        · rintro ⟨rfl, rfl⟩
          rfl
      rw [this]
      tauto
    | drop u =>
      have hne : u ≠ table := by
        rintro rfl
        exact hnodrop List.mem_cons_self
      simp only [step, mem_deleteTableFiles, List.mem_cons, reduceCtorEq, false_or]
      have := not_prefix_of_noSlash (root := root) hop ht hne f
      tauto

/-- **C55**, the table itself: no file of a table that is dropped is left. This holds for every name. -/
theorem C55_dropped_gone (root : List Char) (store : List Path) (table : String) (f : Path) :
    folder root table ++ f ∉ step root store (.drop table) := by
  simp only [step, mem_deleteTableFiles, not_and, not_not]
  exact fun _ => List.prefix_append _ _

/-! ### All names -/

/-- The text of a path with a slash after each part. -/
def pathText (parts : Path) : List Char := parts.flatMap (· ++ ['/'])

/-- The text of a name with a slash begins the text of a file: the file is in the folder of the table or in a folder in it. -/
def Covers (dropped table : String) (file : Path) : Prop := dropped.toList ++ ['/'] <+: table.toList ++ '/' :: pathText file

theorem pathText_splitOn (l : List Char) : pathText (l.splitOn '/') = l ++ ['/'] := by
  induction l with
  | nil => rfl
  | cons c l ih =>
    rw [List.splitOn_cons_eq_if_modifyHead]
    split
    · rename_i h
      have : c = '/' := by simpa using h
      subst this
      show '/' :: pathText (l.splitOn '/') = _
      rw [ih]
      rfl
    · cases hl : l.splitOn '/' with
      | nil => exact absurd hl (List.splitOn_ne_nil _ _)
      | cons a r =>
        rw [hl] at ih
        simp only [pathText, List.modifyHead_cons, List.flatMap_cons, List.cons_append] at ih ⊢
        rw [ih]

theorem splitOn_noSlash (l : List Char) : ∀ part ∈ l.splitOn '/', '/' ∉ part := by
  induction l with
  | nil => simp
  | cons c l ih =>
    rw [List.splitOn_cons_eq_if_modifyHead]
    split
    · intro part hp
      rcases List.mem_cons.mp hp with rfl | hp
      · simp
      · exact ih part hp
    · rename_i h
      cases hl : l.splitOn '/' with
      | nil => exact absurd hl (List.splitOn_ne_nil _ _)
      | cons a r =>
        rw [hl] at ih
        intro part hp
        rcases List.mem_cons.mp hp with rfl | hp
        · have h1 := ih a (by simp)
          have h2 : c ≠ '/' := by simpa using h
          simp [h1, Ne.symm h2]
        · exact ih part (List.mem_cons_of_mem _ hp)

theorem until_slash : ∀ {a b r r' : List Char}, '/' ∉ a → '/' ∉ b → a ++ '/' :: r = b ++ '/' :: r' → a = b ∧ r = r'
  | [], [], _, _, _, _, h => ⟨rfl, by simpa using h⟩
  | [], c :: b, _, _, _, hb, h => by
    injection h with h _
    exact absurd (h ▸ List.mem_cons_self ..) hb
  | c :: a, [], _, _, ha, _, h => by
    injection h with h _
    exact absurd (h ▸ List.mem_cons_self ..) ha
  | c :: a, d :: b, _, _, ha, hb, h => by
    injection h with h1 h2
    obtain ⟨rfl, h3⟩ := until_slash (fun hm => ha (List.mem_cons_of_mem _ hm)) (fun hm => hb (List.mem_cons_of_mem _ hm)) h2
    exact ⟨by rw [h1], h3⟩

theorem pathText_prefix : ∀ {p q : Path}, (∀ part ∈ p, '/' ∉ part) → (∀ part ∈ q, '/' ∉ part) → (p <+: q ↔ pathText p <+: pathText q)
  | [], _, _, _ => by simp [pathText]
  | a :: p, [], _, _ => by simp [pathText]
  | a :: p, b :: q, hp, hq => by
    have ih := pathText_prefix (p := p) (q := q) (fun x hx => hp x (List.mem_cons_of_mem _ hx)) (fun x hx => hq x (List.mem_cons_of_mem _ hx))
    rw [List.cons_prefix_cons, ih]
    simp only [pathText, List.flatMap_cons, List.append_assoc, List.singleton_append]
    constructor
    · rintro ⟨rfl, r, hr⟩
      exact ⟨r, by rw [List.append_assoc, List.cons_append, hr]⟩
    · rintro ⟨r, hr⟩
      rw [List.append_assoc, List.cons_append] at hr
      obtain ⟨rfl, h⟩ := until_slash (hp a (by simp)) (hq b (by simp)) hr
      exact ⟨rfl, r, h⟩

theorem folder_prefix_iff (root : List Char) (t table : String) (f : Path) (hf : ∀ part ∈ f, '/' ∉ part) :
    folder root t <+: folder root table ++ f ↔ Covers t table f := by
  unfold folder Covers
  rw [List.cons_append, List.cons_prefix_cons, pathText_prefix (splitOn_noSlash _), pathText_splitOn]
  · have : pathText (table.toList.splitOn '/' ++ f) = table.toList ++ '/' :: pathText f := by
      rw [pathText, List.flatMap_append, ← pathText, ← pathText, pathText_splitOn]
      simp
    rw [this]
    simp
  · intro part hp
    rcases List.mem_append.mp hp with hp | hp
    · exact splitOn_noSlash _ part hp
    · exact hf part hp

/-- Dropping a table deletes exactly the files whose path begins with its name and a slash, for all names. -/
theorem C55_drop_iff (root : List Char) (store : List Path) (t table : String) (f : Path) (hf : ∀ part ∈ f, '/' ∉ part) :
    folder root table ++ f ∈ step root store (.drop t) ↔ folder root table ++ f ∈ store ∧ ¬Covers t table f := by
  rw [← folder_prefix_iff root t table f hf]
  exact mem_deleteTableFiles

/-- **C55**, partial, for all names: whatever is written, a file is kept if no table is dropped whose name and a slash begin its path. Missing: other
tables with such names. -/
theorem C55_kept_partial (root : List Char) (store : List Path) (ops : List Op) (table : String) (f : Path) (hf : ∀ part ∈ f, '/' ∉ part)
    (hdrop : ∀ t, Op.drop t ∈ ops → ¬Covers t table f) :
    folder root table ++ f ∈ run root store ops ↔
      folder root table ++ f ∈ store ∨ ∃ u g, Op.write u g ∈ ops ∧ folder root u ++ g = folder root table ++ f := by
  induction ops generalizing store with
  | nil => simp [run]
  | cons op ops ih =>
    show folder root table ++ f ∈ run root (step root store op) ops ↔ _
    rw [ih (step root store op) fun t ht => hdrop t (List.mem_cons_of_mem _ ht)]
    cases op with
    | write u g =>
      simp only [step, List.mem_append, List.mem_cons, List.not_mem_nil, or_false, Op.write.injEq]
      constructor
      · rintro ((h | h) | ⟨u', g', h, h'⟩)
        · exact .inl h
        · exact .inr ⟨u, g, .inl ⟨rfl, rfl⟩, h.symm⟩
        · exact .inr ⟨u', g', .inr h, h'⟩
      · rintro (h | ⟨u', g', ⟨rfl, rfl⟩ | h, h'⟩)
        · exact .inl (.inl h)
        · exact .inl (.inr h'.symm)
        · exact .inr ⟨u', g', h, h'⟩
    | drop t =>
      rw [C55_drop_iff root store t table f hf]
      have := hdrop t List.mem_cons_self
      simp only [List.mem_cons, reduceCtorEq, false_or]
      tauto

/-- The hypotheses hold for tables in the folders of others. -/
example : folder "tables".toList "a/b" ++ ["1.parquet".toList] ∈
      run "tables".toList [] [.write "a/b" ["1.parquet".toList], .write "a/bc" ["1.parquet".toList], .drop "a/bc", .drop "a/b/c"] ∧
    ¬Covers "a/bc" "a/b" ["1.parquet".toList] ∧ ¬Covers "a/b/c" "a/b" ["1.parquet".toList] := by
  unfold Covers
  decide +kernel

/-- **C55** is false for all names with a slash: dropping a table whose name is the part before a slash deletes all files. -/
theorem C55_nested (root : List Char) (store : List Path) (a b : String) (f : Path) (hf : ∀ part ∈ f, '/' ∉ part) :
    folder root (a ++ "/" ++ b) ++ f ∉ step root store (.drop a) := by
  rw [C55_drop_iff root store a _ f hf, not_and, not_not]
  intro _
  refine ⟨b.toList ++ '/' :: pathText f, ?_⟩
  simp [String.toList_append]

/-- **C55** is false in the other direction too: the files of time series tables are in folders for their fields
(crates/modelardb_storage/src/data_folder/mod.rs:441), and dropping a table with the name of such a folder deletes them. -/
theorem C55_field_deleted (root : List Char) (store : List Path) (a : String) (f : Path) (part : String) (hp : '/' ∉ part.toList) (hf : ∀ part ∈ f, '/' ∉ part) :
    folder root a ++ (part.toList :: f) ∉ step root store (.drop (a ++ "/" ++ part)) := by
  rw [C55_drop_iff root store _ _ _ (by
    intro p hm
    rcases List.mem_cons.mp hm with rfl | hm
    · exact hp
    · exact hf p hm), not_and, not_not]
  intro _
  refine ⟨pathText f, ?_⟩
  simp [String.toList_append, pathText]

example : folder "tables".toList "a" ++ ["field_column=1".toList, "1.parquet".toList] ∈
      run "tables".toList [] [.write "a" ["field_column=1".toList, "1.parquet".toList], .write "a/field_column=1" ["2.parquet".toList]] ∧
    folder "tables".toList "a" ++ ["field_column=1".toList, "1.parquet".toList] ∉
      run "tables".toList [] [.write "a" ["field_column=1".toList, "1.parquet".toList], .write "a/field_column=1" ["2.parquet".toList],
        .drop "a/field_column=1"] := by
  decide +kernel

/-- **C55** is false for names with a slash: dropping `a` deletes the files of `a/b`. -/
theorem C55_nested_table_deleted :
    folder "tables".toList "a/b" ++ ["1.parquet".toList] ∉
      run "tables".toList [] [.write "a/b" ["1.parquet".toList], .drop "a"] ∧
    folder "wal".toList "a/b" ++ ["0-.arrows".toList] ∉ run "wal".toList [] [.write "a/b" ["0-.arrows".toList], .drop "a"] := by
  decide +kernel

/-- With other names the file is kept, also if one name starts with the other. -/
example : folder "tables".toList "ab" ++ ["1.parquet".toList] ∈
    run "tables".toList [] [.write "ab" ["1.parquet".toList], .write "a" ["1.parquet".toList], .drop "a"] := by
  decide +kernel

end ModelarDB.Props
