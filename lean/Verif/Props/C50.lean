import Verif.Spec.DeltaWriter
import Mathlib.Data.List.Perm.Basic
import Mathlib.Data.List.Nodup
/-
C50: A saved batch and its ids become visible together.
-/
namespace ModelarDB.Props
open Model.DeltaWriter Spec.DeltaWriter

variable {β ρ : Type}

/-- The names of the new objects are new and different. -/
def FreshNames (layout : Layout β ρ) (t : Table ρ) : Prop :=
  ∀ batches, (∀ f ∈ layout.files batches, f.1 ∉ t.log.flatMap Prod.fst) ∧ ((layout.files batches).map Prod.fst).Nodup

/-- The objects contain exactly the rows of the record batches. -/
def KeepsRows (layout : Layout β ρ) (rows : β → List ρ) : Prop :=
  ∀ batches, ((layout.files batches).flatMap Prod.snd).Perm (batches.flatMap rows)

private theorem content_of_ne {o : List (String × List ρ)} {path q : String} (h : q ≠ path) (rows : List ρ) :
    content ((path, rows) :: o) q = content o q := by
  unfold content
  rw [List.find?_cons_of_neg (by simpa using fun h' => h h'.symm)]

private theorem content_filter {o : List (String × List ρ)} {path q : String} (h : q ≠ path) :
    content (o.filter fun o => o.1 ≠ path) q = content o q := by
  unfold content
  rw [List.find?_filter]
  congr 2
  funext a
  by_cases ha : a.1 = q
  · simp [ha, h]
  · simp [ha]

/-- The change concerns an object with one of the names. -/
private def About (names : List String) : Effect ρ → Prop
  | .put path _ => path ∈ names
  | .delete path => path ∈ names
  | .commit _ _ => False

private theorem about_log {names : List String} {es : List (Effect ρ)} (h : ∀ e ∈ es, About names e) (t : Table ρ) :
    (es.foldl Table.apply t).log = t.log := by
  induction es generalizing t with
  | nil => rfl
  | cons e es ih =>
    rw [List.foldl_cons, ih fun e he => h e (List.mem_cons_of_mem _ he)]
    have := h e (List.mem_cons_self ..)
    cases e with
    | put => rfl
    | delete => rfl
    | commit => exact this.elim

private theorem about_content {names : List String} {es : List (Effect ρ)} (h : ∀ e ∈ es, About names e) (t : Table ρ) {q : String}
    (hq : q ∉ names) : content (es.foldl Table.apply t).objects q = content t.objects q := by
  induction es generalizing t with
  | nil => rfl
  | cons e es ih =>
    rw [List.foldl_cons, ih fun e he => h e (List.mem_cons_of_mem _ he)]
    have := h e (List.mem_cons_self ..)
    cases e with
    | put path rows => exact content_of_ne (fun h' : q = path => hq (h' ▸ this)) rows
    | delete path => exact content_filter (fun h' : q = path => hq (h' ▸ this))
    | commit => exact this.elim

private theorem mapM_congr {l : List String} {f g : String → Option (List ρ)} (h : ∀ x ∈ l, f x = g x) : l.mapM f = l.mapM g := by
  induction l with
  | nil => rfl
  | cons x l ih =>
    rw [List.mapM_cons, List.mapM_cons, h x (List.mem_cons_self ..), ih fun y hy => h y (List.mem_cons_of_mem _ hy)]

/-- Changes to objects that no commit has added are not visible. -/
private theorem about_unchanged {names : List String} {es : List (Effect ρ)} (h : ∀ e ∈ es, About names e) (t : Table ρ)
    (hfresh : ∀ n ∈ names, n ∉ t.log.flatMap Prod.fst) :
    visible (es.foldl Table.apply t) = visible t ∧ recorded (es.foldl Table.apply t) = recorded t := by
  unfold visible recorded
  rw [about_log h]
  refine ⟨?_, rfl⟩
  rw [mapM_congr fun x hx => about_content h t fun hn => hfresh x hn hx]

private theorem about_mono {a b : List String} (h : ∀ x ∈ a, x ∈ b) {e : Effect ρ} (he : About a e) : About b e := by
  cases e with
  | put => exact h _ he
  | delete => exact h _ he
  | commit => exact he

private theorem about_puts (files : List (String × List ρ)) :
    ∀ e ∈ files.map (fun f => Effect.put f.1 f.2), About (files.map Prod.fst) e := by
  intro e he
  rw [List.mem_map] at he
  obtain ⟨f, hf, rfl⟩ := he
  exact List.mem_map_of_mem hf

private theorem about_close (faults : Faults) (files : List (String × List ρ)) :
    ∀ e ∈ (close faults files).1, About (files.map Prod.fst) e := by
  unfold close
  split
  · exact about_puts files
  · next n _ =>
    intro e he
    refine about_mono (fun x hx => ?_) (about_puts (files.take n) e he)
    rw [List.mem_map] at hx ⊢
    obtain ⟨f, hf, rfl⟩ := hx
    exact ⟨f, List.mem_of_mem_take hf, rfl⟩

private theorem about_delete (faults : Faults) (files : List (String × List ρ)) :
    ∀ e ∈ deleteAddedFiles faults files, About (files.map Prod.fst) e := by
  unfold deleteAddedFiles
  split
  · intro e he
    rw [List.mem_map] at he
    obtain ⟨f, hf, rfl⟩ := he
    exact List.mem_map_of_mem hf
  · intro e he
    rw [List.mem_map] at he
    obtain ⟨f, hf, rfl⟩ := he
    exact List.mem_map_of_mem (List.mem_of_mem_take hf)

private theorem about_append {names : List String} {a b : List (Effect ρ)} (ha : ∀ e ∈ a, About names e) (hb : ∀ e ∈ b, About names e) :
    ∀ e ∈ a ++ b, About names e := fun e he => (List.mem_append.mp he).elim (ha e) (hb e)

private theorem about_take {names : List String} {a : List (Effect ρ)} (ha : ∀ e ∈ a, About names e) (n : Nat) :
    ∀ e ∈ a.take n, About names e := fun e he => ha e (List.mem_of_mem_take he)

private theorem content_puts {files : List (String × List ρ)} (hn : (files.map Prod.fst).Nodup) (t : Table ρ) {f : String × List ρ}
    (hf : f ∈ files) : content ((files.map fun f => Effect.put f.1 f.2).foldl Table.apply t).objects f.1 = some f.2 := by
  induction files generalizing t with
  | nil => cases hf
  | cons g files ih =>
    rw [List.map_cons, List.nodup_cons] at hn
    rw [List.map_cons, List.foldl_cons]
    rcases List.mem_cons.mp hf with rfl | hf
    · rw [about_content (about_puts files) _ hn.1]
      simp [Table.apply, content]
    · exact ih hn.2 _ hf

private theorem mapM_puts {l : List (String × List ρ)} {g : String → Option (List ρ)} (h : ∀ f ∈ l, g f.1 = some f.2) :
    (l.map Prod.fst).mapM g = some (l.map Prod.snd) := by
  induction l with
  | nil => rfl
  | cons x l ih =>
    rw [List.map_cons, List.mapM_cons, h x (List.mem_cons_self ..), ih fun y hy => h y (List.mem_cons_of_mem _ hy)]
    rfl

/-- The changes of a save that succeeds. -/
private def saves (files : List (String × List ρ)) (ids : List Nat) : List (Effect ρ) :=
  files.map (fun f => Effect.put f.1 f.2) ++ [.commit (files.map Prod.fst) ids]

private theorem committed {files : List (String × List ρ)} (hn : (files.map Prod.fst).Nodup) (t : Table ρ)
    (hfresh : ∀ f ∈ files, f.1 ∉ t.log.flatMap Prod.fst) (ids : List Nat) {rows : List ρ} (hv : visible t = some rows) :
    visible ((saves files ids).foldl Table.apply t) =
        some (rows ++ files.flatMap Prod.snd) ∧
      recorded ((saves files ids).foldl Table.apply t) = recorded t ++ ids := by
  unfold saves
  rw [List.foldl_append, List.foldl_cons, List.foldl_nil]
  have hlog := about_log (about_puts files) t
  have hold : ∀ x ∈ t.log.flatMap Prod.fst,
      content ((files.map fun f => Effect.put f.1 f.2).foldl Table.apply t).objects x = content t.objects x := by
    intro x hx
    refine about_content (about_puts files) t fun h => ?_
    rw [List.mem_map] at h
    obtain ⟨f, hf, rfl⟩ := h
    exact hfresh f hf hx
  constructor
  · unfold visible at hv ⊢
    simp only [Table.apply, hlog, List.flatMap_append, List.flatMap_cons, List.flatMap_nil, List.append_nil]
    rw [Option.map_eq_some_iff] at hv
    obtain ⟨parts, hp, rfl⟩ := hv
    rw [List.mapM_append, mapM_congr hold, hp, mapM_puts (fun f hf => content_puts hn t hf)]
    simp [List.flatMap_def]
  · simp only [recorded, Table.apply, hlog, List.flatMap_append, List.flatMap_cons, List.flatMap_nil, List.append_nil]

private theorem take_snoc_cases {τ : Type} (a : List τ) (x : τ) (n : Nat) : (a ++ [x]).take n = a.take n ∨ (a ++ [x]).take n = a ++ [x] := by
  by_cases h : n ≤ a.length
  · exact Or.inl (List.take_append_of_le_length h)
  · exact Or.inr (List.take_of_length_le (by simp; omega))

/-- C50: wherever writing fails and wherever it is interrupted by a crash, the rows of the batches are all visible together with
all ids, or neither the visible rows nor the ids have changed. What is missing: it is assumed that the commit of the crate has no effect if
it returns an error, `C50_commit_error_after_commit` shows what happens otherwise. -/
theorem C50_atomic_partial {layout : Layout β ρ} {rows : β → List ρ} (hrows : KeepsRows layout rows) {t : Table ρ}
    (hfresh : FreshNames layout t) {before : List ρ} (hv : visible t = some before) {faults : Faults}
    (hcommit : faults.commit ≠ .failedAfterCommit) (batches : List β) (ids : List Nat) (crash : Nat) :
    let t' := ((writeAllAndCommit layout faults batches ids).1.take crash).foldl Table.apply t
    (visible t' = some before ∧ recorded t' = recorded t) ∨
      (∃ added, visible t' = some (before ++ added) ∧ added.Perm (batches.flatMap rows) ∧ recorded t' = recorded t ++ ids) := by
  have hsame : ∀ (bs : List β) (es : List (Effect ρ)), (∀ e ∈ es, About ((layout.files bs).map Prod.fst) e) → ∀ n,
      visible ((es.take n).foldl Table.apply t) = some before ∧ recorded ((es.take n).foldl Table.apply t) = recorded t := by
    intro bs es h n
    rw [← hv]
    refine about_unchanged (about_take h n) t fun name hname => ?_
    rw [List.mem_map] at hname
    obtain ⟨f, hf, rfl⟩ := hname
    exact (hfresh bs).1 f hf
  have hmain : let t' := ((commit faults (layout.files batches) ids).1.take crash).foldl Table.apply t
      (visible t' = some before ∧ recorded t' = recorded t) ∨
      (∃ added, visible t' = some (before ++ added) ∧ added.Perm (batches.flatMap rows) ∧ recorded t' = recorded t ++ ids) := by
    unfold commit
    have hc := about_close faults (layout.files batches)
    have hd := about_delete faults (layout.files batches)
    generalize hcl : close faults (layout.files batches) = cl at hc
    obtain ⟨effects, ok⟩ := cl
    dsimp only at hc ⊢
    split
    · exact Or.inl (hsame batches _ hc crash)
    · next hok =>
      split
      · exact Or.inl (hsame batches _ (about_append hc hd) crash)
      · split
        · have he : effects = (layout.files batches).map fun f => Effect.put f.1 f.2 := by
            unfold close at hcl
            split at hcl
            · cases hcl; rfl
            · cases hcl; simp at hok
          dsimp only
          rcases take_snoc_cases effects (.commit ((layout.files batches).map Prod.fst) ids) crash with h | h
          · rw [h]
            exact Or.inl (hsame batches _ hc crash)
          · rw [h, he]
            obtain ⟨h1, h2⟩ := committed (hfresh batches).2 t (hfresh batches).1 ids hv
            exact Or.inr ⟨_, h1, hrows batches, h2⟩
        · exact Or.inl (hsame batches _ (about_append hc hd) crash)
        · next h => exact absurd h hcommit
  unfold writeAllAndCommit
  split
  · next i _ =>
    split
    · refine Or.inl (hsame (batches.take i) _ ?_ crash)
      unfold rollback
      have hc := about_close faults (layout.files (batches.take i))
      have hd := about_delete faults (layout.files (batches.take i))
      generalize close faults (layout.files (batches.take i)) = cl at hc
      obtain ⟨effects, ok⟩ := cl
      dsimp only at hc ⊢
      split
      · exact about_append hc hd
      · exact hc
    · exact hmain
  · exact hmain

/-- C50, the answer: if success is returned the rows and ids are visible, and if an error is returned and loading the table after the commit
did not fail, nothing has changed. -/
theorem C50_answer_partial {layout : Layout β ρ} {rows : β → List ρ} (hrows : KeepsRows layout rows) {t : Table ρ}
    (hfresh : FreshNames layout t) {before : List ρ} (hv : visible t = some before) {faults : Faults}
    (hcommit : faults.commit ≠ .failedAfterCommit) (batches : List β) (ids : List Nat) :
    let t' := (writeAllAndCommit layout faults batches ids).1.foldl Table.apply t
    ((writeAllAndCommit layout faults batches ids).2 = true →
      ∃ added, visible t' = some (before ++ added) ∧ added.Perm (batches.flatMap rows) ∧ recorded t' = recorded t ++ ids) ∧
    ((writeAllAndCommit layout faults batches ids).2 = false → faults.load = false →
      visible t' = some before ∧ recorded t' = recorded t) := by
  have hsame : ∀ (bs : List β) (es : List (Effect ρ)), (∀ e ∈ es, About ((layout.files bs).map Prod.fst) e) →
      visible (es.foldl Table.apply t) = some before ∧ recorded (es.foldl Table.apply t) = recorded t := by
    intro bs es h
    rw [← hv]
    refine about_unchanged h t fun name hname => ?_
    rw [List.mem_map] at hname
    obtain ⟨f, hf, rfl⟩ := hname
    exact (hfresh bs).1 f hf
  have hmain : let t' := (commit faults (layout.files batches) ids).1.foldl Table.apply t
      ((commit faults (layout.files batches) ids).2 = true →
        ∃ added, visible t' = some (before ++ added) ∧ added.Perm (batches.flatMap rows) ∧ recorded t' = recorded t ++ ids) ∧
      ((commit faults (layout.files batches) ids).2 = false → faults.load = false →
        visible t' = some before ∧ recorded t' = recorded t) := by
    unfold commit
    have hc := about_close faults (layout.files batches)
    have hd := about_delete faults (layout.files batches)
    generalize hcl : close faults (layout.files batches) = cl at hc
    obtain ⟨effects, ok⟩ := cl
    dsimp only at hc ⊢
    split
    · exact ⟨fun h => by simp at h, fun _ _ => hsame batches _ hc⟩
    · next hok =>
      split
      · exact ⟨fun h => by simp at h, fun _ _ => hsame batches _ (about_append hc hd)⟩
      · split
        · have he : effects = (layout.files batches).map fun f => Effect.put f.1 f.2 := by
            unfold close at hcl
            split at hcl
            · cases hcl; rfl
            · cases hcl; simp at hok
          dsimp only
          rw [he]
          obtain ⟨h1, h2⟩ := committed (hfresh batches).2 t (hfresh batches).1 ids hv
          exact ⟨fun _ => ⟨_, h1, hrows batches, h2⟩, fun h hl => by simp [hl] at h⟩
        · exact ⟨fun h => by simp at h, fun _ _ => hsame batches _ (about_append hc hd)⟩
        · next h => exact absurd h hcommit
  unfold writeAllAndCommit
  split
  · next i _ =>
    split
    · refine ⟨fun h => by simp at h, fun _ _ => hsame (batches.take i) _ ?_⟩
      unfold rollback
      have hc := about_close faults (layout.files (batches.take i))
      have hd := about_delete faults (layout.files (batches.take i))
      generalize close faults (layout.files (batches.take i)) = cl at hc
      obtain ⟨effects, ok⟩ := cl
      dsimp only at hc ⊢
      split
      · exact about_append hc hd
      · exact hc
    · exact hmain
  · exact hmain

/-- One object per record batch. -/
def exampleLayout : Layout (List Nat) Nat := ⟨fun batches => batches.zipIdx.map fun (b, i) => (String.ofList (List.replicate (i + 2) 'f'), b)⟩

def exampleTable : Table Nat := ⟨[("f", [1, 2])], [(["f"], [0])]⟩

def noFaults : Faults := ⟨none, none, false, .ok, none, false⟩

example : KeepsRows exampleLayout id := by
  intro batches
  have : ∀ (l : List (List Nat)) (k : Nat), ((l.zipIdx k).map fun (b, i) => (String.ofList (List.replicate (i + 2) 'f'), b)).flatMap Prod.snd =
      l.flatMap id := by
    intro l
    induction l with
    | nil => intro k; rfl
    | cons x l ih =>
      intro k
      simp only [List.zipIdx_cons, List.map_cons, List.flatMap_cons, ih, id]
  unfold exampleLayout
  rw [this batches 0]

example : FreshNames exampleLayout exampleTable := by
  intro batches
  have hnames : (exampleLayout.files batches).map Prod.fst =
      (batches.zipIdx.map Prod.snd).map fun i => String.ofList (List.replicate (i + 2) 'f') := by
    rw [List.map_map]
    exact List.map_map ..
  constructor
  · intro f hf
    have : f.1 ∈ (exampleLayout.files batches).map Prod.fst := List.mem_map_of_mem hf
    rw [hnames, List.mem_map] at this
    obtain ⟨i, _, hi⟩ := this
    intro hmem
    have hf1 : f.1 = String.ofList (List.replicate 1 'f') := by simpa [exampleTable] using hmem
    rw [← hi, String.ofList_inj] at hf1
    have := congrArg List.length hf1
    simp at this
  · rw [hnames, List.zipIdx_map_snd]
    refine List.Nodup.map (fun a b h => ?_) List.nodup_range'
    have := congrArg List.length (String.ofList_inj.mp h)
    simpa using this

example : visible exampleTable = some [1, 2] ∧
    visible ((writeAllAndCommit exampleLayout noFaults [[3], [4, 5]] [7, 8]).1.foldl Table.apply exampleTable) = some [1, 2, 3, 4, 5] ∧
    recorded ((writeAllAndCommit exampleLayout noFaults [[3], [4, 5]] [7, 8]).1.foldl Table.apply exampleTable) = [0, 7, 8] ∧
    visible ((writeAllAndCommit exampleLayout { noFaults with commit := .failed } [[3], [4, 5]] [7, 8]).1.foldl Table.apply exampleTable) =
      some [1, 2] := by decide +kernel

/-- C50 is false: if the table cannot be loaded after the commit, an error is returned although the rows are visible. -/
theorem C50_error_although_saved :
    (writeAllAndCommit exampleLayout { noFaults with load := true } [[3]] [7]).2 = false ∧
    visible ((writeAllAndCommit exampleLayout { noFaults with load := true } [[3]] [7]).1.foldl Table.apply exampleTable) =
      some [1, 2, 3] := by decide +kernel

/-- If the crate returns an error after the commit is in the log, the objects the commit added are deleted, and the table cannot be
read. -/
theorem C50_commit_error_after_commit :
    visible ((writeAllAndCommit exampleLayout { noFaults with commit := .failedAfterCommit } [[3]] [7]).1.foldl Table.apply exampleTable) =
      none := by decide +kernel

end ModelarDB.Props
