import Verif.Lemmas.EndToEndRows
import Verif.Spec.FileOrder
/-
Lemmas for the order in which segments are read from files.
-/
namespace ModelarDB.Lemmas.FileOrder
open Model Model.Query Model.StoredTable Model.FileOrder Spec

/-! ### The files -/

theorem rollOver_flatten {σ : Type} (full : List σ → Bool) : ∀ (current : List σ) (batches : List (List σ)),
    (rollOver full current batches).flatten = current ++ batches.flatten
  | current, [] => by
    unfold rollOver
    split
    · rename_i h
      simp [List.isEmpty_iff.mp h]
    · simp
  | current, batch :: batches => by
    unfold rollOver
    split
    · simp [rollOver_flatten full [] batches]
    · simp [rollOver_flatten full (current ++ batch) batches]

/-- One file is written if no file reaches its size. -/
theorem rollOver_never {σ : Type} {full : List σ → Bool} (h : ∀ l, full l = false) : ∀ (current : List σ) (batches : List (List σ)),
    (rollOver full current batches).length ≤ 1
  | current, [] => by
    unfold rollOver
    split <;> simp
  | current, batch :: batches => by
    unfold rollOver
    simp only [h, Bool.false_eq_true, if_false]
    exact rollOver_never h _ _

variable {α ε : Type} {log2 : Log2} {m : TableDefinition.Metadata ε} {value : α → Nat → Nat} {full : List StoredSegment → Bool} {field : Nat}

/-- The files have the segments that are stored. -/
theorem fieldFiles_flatten : ∀ {saves : List (List (Storage.Chunk α))} {stored : List StoredSegment},
    storedSegments log2 m value field saves.flatten = some stored →
    ∃ files, fieldFiles log2 m value full field saves = some files ∧ files.flatten = stored := by
  unfold storedSegments fieldFiles
  split
  swap
  · intro _ _ h
    exact ⟨[], rfl, by simpa using h⟩
  intro saves
  induction saves with
  | nil =>
    intro stored h
    exact ⟨[], rfl, by simpa using h⟩
  | cons save saves ih =>
    intro stored h
    obtain ⟨l, hl, rfl⟩ := Option.map_eq_some_iff.mp h
    rw [List.flatten_cons, List.filter_append, List.mapM_append] at hl
    simp only [bind, Option.bind_eq_some_iff, pure, Option.some.injEq] at hl
    obtain ⟨x, hx, y, hy, rfl⟩ := hl
    obtain ⟨files, hfiles, hflat⟩ := ih (by rw [hy]; rfl)
    obtain ⟨ls, hls, rfl⟩ := Option.map_eq_some_iff.mp hfiles
    refine ⟨rollOver full [] x ++ ls.flatten, ?_, ?_⟩
    · rw [List.mapM_cons, hx, hls]
      rfl
    · rw [List.flatten_append, rollOver_flatten, hflat]
      simp

/-- There is at most one file for each save if no file reaches its size, and at least one file for each save that has segments. -/
theorem fieldFiles_length (hfield : field ∈ m.fieldIndices) : ∀ {saves : List (List (Storage.Chunk α))},
    (∀ c ∈ saves.flatten, c.table = m.name → ∃ l, compressField log2 m value field c = some l ∧ l ≠ []) →
    ∀ {files : List (List StoredSegment)}, fieldFiles log2 m value full field saves = some files →
    (savesOf m.name saves).length ≤ files.length ∧ ((∀ l, full l = false) → files.length = (savesOf m.name saves).length) := by
  unfold fieldFiles
  simp only [if_pos hfield]
  intro saves
  induction saves with
  | nil =>
    intro _ files h
    cases h
    simp [savesOf]
  | cons save saves ih =>
    intro hne files h
    obtain ⟨l, hl, rfl⟩ := Option.map_eq_some_iff.mp h
    rw [List.mapM_cons] at hl
    simp only [bind, Option.bind_eq_some_iff, pure, Option.some.injEq] at hl
    obtain ⟨x, hx, y, hy, rfl⟩ := hl
    obtain ⟨batches, hb, rfl⟩ := Option.map_eq_some_iff.mp hx
    obtain ⟨i1, i2⟩ := ih (fun c hc => hne c (by simp [hc])) (files := y.flatten) (by rw [hy]; rfl)
    have hempty : save.any (fun c => c.table = m.name) = false → rollOver full [] batches = [] := by
      intro h
      have : save.filter (fun c => c.table = m.name) = [] := by
        rw [List.filter_eq_nil_iff]
        rw [List.any_eq_false] at h
        exact h
      rw [this] at hb
      cases hb
      rfl
    have hsome : save.any (fun c => c.table = m.name) = true → rollOver full [] batches ≠ [] := by
      intro h hnil
      obtain ⟨c, hc, ht⟩ := List.any_eq_true.mp h
      obtain ⟨s, hs, hsne⟩ := hne c (by simp [hc]) (by simpa using ht)
      have hflat := rollOver_flatten full [] batches
      rw [hnil, List.flatten_nil, List.nil_append] at hflat
      obtain ⟨k, hk, hget⟩ := List.getElem_of_mem (List.mem_filter.mpr ⟨hc, ht⟩ : c ∈ save.filter fun c => c.table = m.name)
      have h1 := Props.mapM_option_eq_some.mp hb
      have h2 := congrArg (fun l => l[k]?) h1
      simp only [List.getElem?_map, List.getElem?_eq_getElem hk, Option.map_some, hget, hs] at h2
      have hmem : s ∈ batches := by
        obtain ⟨b, hb1, hb2⟩ := Option.map_eq_some_iff.mp h2.symm
        cases hb2
        exact List.mem_of_getElem? hb1
      exact hsne (List.flatten_eq_nil_iff.mp hflat.symm s hmem)
    have hcons : (savesOf m.name (save :: saves)).length = (if save.any (fun c => c.table = m.name) then 1 else 0) + (savesOf m.name saves).length := by
      unfold savesOf
      rw [List.filter_cons]
      split <;> simp_all
      omega
    rw [hcons]
    simp only [List.flatten_cons, List.length_append]
    generalize y.flatten.length = n at i1 i2 ⊢
    cases hany : save.any (fun c => c.table = m.name) with
    | false =>
      rw [hempty hany]
      simpa using ⟨i1, i2⟩
    | true =>
      have hpos := List.length_pos_iff.mpr (hsome hany)
      rw [if_pos rfl]
      refine ⟨by omega, fun hf => ?_⟩
      have := rollOver_never hf [] batches
      rw [i2 hf]
      omega

/-! ### The order of the rows -/

/-- The data points that are read from at most one file for each field are in the order of the rows that were stored. -/
theorem inLine_of_files {w : World ε StoredSegment} {fields : List Nat} {lt : List String → List String → Prop}
    {files : Nat → List (List StoredSegment)} (hreads : ReadsFiles w lt fields files) (hone : ∀ i ∈ fields, (files i).length ≤ 1)
    {rows : List TableRow} (hpoints : ∀ i ∈ fields, rows.map (TableRow.point i) = (files i).flatten.flatMap pointsOf) :
    EndToEnd.InLine w fields rows := by
  intro keep f i hi hperm
  obtain ⟨read, _, h2, _, h4, _⟩ := hreads.contents i hi keep
  rw [h4 (hone i hi)] at hperm ⊢
  have hsub : (kept (onPoints f) (read.flatMap pointsOf)).Sublist (kept (onPoints f) ((files i).flatten.flatMap pointsOf)) := by
    have := List.Sublist.flatMap h2 pointsOf
    unfold kept
    split
    · exact this.filter _
    · exact this
  rw [← hpoints i hi, kept_onPoints] at hsub
  exact hsub.eq_of_length hperm.length_eq

theorem reads_of_files {w : World ε StoredSegment} {fields : List Nat} {lt : List String → List String → Prop}
    {files : Nat → List (List StoredSegment)} (hreads : ReadsFiles w lt fields files) :
    ∀ i ∈ fields, ReadsStoredSegments w i (files i).flatten := fun i hi =>
  ⟨hreads.segment, hreads.neverFails i hi, fun keep => by
    obtain ⟨read, h1, h2, h3, _⟩ := hreads.contents i hi keep
    exact ⟨read, h1, h2, h3⟩⟩

/-- What is read is sorted if there are several files for each field. -/
theorem sorted_of_files {w : World ε StoredSegment} {fields : List Nat} {lt : List String → List String → Prop}
    {files : Nat → List (List StoredSegment)} (hreads : ReadsFiles w lt fields files) (hmany : ∀ i ∈ fields, 2 ≤ (files i).length) :
    ReadsSortedSegments w lt fields fun i => (files i).flatten :=
  ⟨reads_of_files hreads, fun i hi keep => by
    obtain ⟨_, _, _, _, _, h5⟩ := hreads.contents i hi keep
    exact h5 (hmany i hi)⟩

end ModelarDB.Lemmas.FileOrder
