import Verif.Spec.TableNames
/-
Lemmas about the session of DataFusion when all names stand for themselves.
-/
namespace ModelarDB.Lemmas
open Model Model.TableNames Spec

/-- The session when all names stand for themselves. -/
def sessionOf (disk : List (List Char)) : List (Ref × Option (List Char)) :=
  metadataRefs.map (·, none) ++ disk.map fun n => (bare n, some n)

theorem bare_inj {a b : List Char} (h : bare a = bare b) : a = b := congrArg Ref.table h

theorem metadata_ne_bare {r : Ref} (hr : r ∈ metadataRefs) (name : List Char) : r ≠ bare name := by
  rintro rfl
  have hs : ∀ r ∈ metadataRefs, r.schema ≠ "public".toList := by decide +kernel
  exact hs _ hr rfl

theorem any_sessionOf (disk : List (List Char)) (name : List Char) :
    (sessionOf disk).any (·.1 == bare name) = decide (name ∈ disk) := by
  unfold sessionOf
  rw [List.any_append]
  have h1 : (metadataRefs.map fun r => ((r, none) : Ref × Option (List Char))).any (·.1 == bare name) = false := by
    rw [List.any_eq_false]
    intro x hx
    obtain ⟨r, hr, rfl⟩ := List.mem_map.mp hx
    simpa using metadata_ne_bare hr name
  rw [h1, Bool.false_or]
  by_cases h : name ∈ disk
  · rw [decide_eq_true h, List.any_eq_true]
    exact ⟨_, List.mem_map.mpr ⟨name, h, rfl⟩, by simp⟩
  · rw [decide_eq_false h, List.any_eq_false]
    intro x hx
    obtain ⟨n, hn, rfl⟩ := List.mem_map.mp hx
    simp only [beq_iff_eq]
    intro he
    exact h (bare_inj he ▸ hn)

theorem find_sessionOf (disk : List (List Char)) {name : List Char} (hname : SelfName name) :
    Folder.find ⟨disk, sessionOf disk⟩ name = if name ∈ disk then some name else none := by
  unfold Folder.find sessionOf
  rw [hname, List.find?_append]
  have h1 : (metadataRefs.map fun r => ((r, none) : Ref × Option (List Char))).find? (·.1 == bare name) = none := by
    rw [List.find?_eq_none]
    intro x hx
    obtain ⟨r, hr, rfl⟩ := List.mem_map.mp hx
    simpa using metadata_ne_bare hr name
  rw [h1, Option.none_or]
  induction disk with
  | nil => rfl
  | cons n disk ih =>
    rw [List.map_cons]
    by_cases h : n = name
    · subst h
      rw [List.find?_cons_of_pos (by simp)]
      simp
    · rw [List.find?_cons_of_neg (by simpa using fun he => h (bare_inj he)), ih]
      simp [Ne.symm h]

theorem bare_known (name : List Char) : (bare name).known = true := by
  unfold Ref.known bare
  simp

theorem register_sessionOf {disk : List (List Char)} {name : List Char} (hname : SelfName name) (h : name ∉ disk) :
    register (sessionOf disk) name = some (sessionOf (disk ++ [name])) := by
  unfold register
  rw [hname, any_sessionOf, decide_eq_false h, bare_known]
  simp [sessionOf]

theorem registerAll_sessionOf : ∀ (rest disk : List (List Char)), (∀ n ∈ rest, SelfName n) → (disk ++ rest).Nodup →
    registerAll (sessionOf disk) rest = some (sessionOf (disk ++ rest))
  | [], disk, _, _ => by rw [registerAll, List.append_nil]
  | n :: rest, disk, hs, hd => by
    have hn : n ∉ disk := by
      intro hc
      exact (List.nodup_append.mp hd).2.2 n hc n (by simp) rfl
    rw [registerAll, register_sessionOf (hs n (by simp)) hn, Option.bind_some,
      registerAll_sessionOf rest (disk ++ [n]) (fun m hm => hs m (by simp [hm])) (by simpa using hd)]
    simp

/-- The invariant: the session holds exactly the tables. -/
structure Registered (f : Folder) : Prop where
  session : f.session = sessionOf f.disk
  nodup : f.disk.Nodup
  self : ∀ n ∈ f.disk, SelfName n

theorem Registered.eta {f : Folder} (h : Registered f) : f = ⟨f.disk, sessionOf f.disk⟩ := by
  cases f
  simp only [Folder.mk.injEq, true_and]
  exact h.session

theorem Registered.opened {f : Folder} (h : Registered f) : openFolder f.disk = some f := by
  unfold openFolder
  have := registerAll_sessionOf f.disk [] h.self (by simpa using h.nodup)
  rw [List.nil_append] at this
  have he : sessionOf [] = metadataRefs.map (·, none) := by simp [sessionOf]
  rw [he] at this
  rw [this, Option.map_some, ← h.session]

theorem Registered.find {f : Folder} (h : Registered f) {name : List Char} (hname : SelfName name) :
    f.find name = if name ∈ f.disk then some name else none := by
  rw [h.eta]
  exact find_sessionOf f.disk hname

theorem Registered.has {f : Folder} (h : Registered f) (name : List Char) : f.has (bare name) = decide (name ∈ f.disk) := by
  unfold Folder.has
  rw [h.session]
  exact any_sessionOf f.disk name

theorem create_registered {f : Folder} (h : Registered f) {name : List Char} (hname : SelfName name) :
    create f name = if name ∈ f.disk then (f, false) else (⟨f.disk ++ [name], sessionOf (f.disk ++ [name])⟩, true) := by
  unfold create
  by_cases hm : name ∈ f.disk
  · rw [if_pos hm, if_pos hm]
  · rw [if_neg hm, if_neg hm, h.session, register_sessionOf hname hm]

theorem filter_sessionOf (disk : List (List Char)) (name : List Char) :
    (sessionOf disk).filter (·.1 != bare name) = sessionOf (disk.filter (· ≠ name)) := by
  unfold sessionOf
  have h1 : (metadataRefs.map fun r => ((r, none) : Ref × Option (List Char))).filter (·.1 != bare name) = metadataRefs.map (·, none) := by
    rw [List.filter_eq_self]
    intro x hx
    obtain ⟨r, hr, rfl⟩ := List.mem_map.mp hx
    simpa using metadata_ne_bare hr name
  rw [List.filter_append, h1]
  congr 1
  · rw [List.filter_map]
    congr 1
    apply List.filter_congr
    intro n hn
    by_cases h : n = name
    · subst h; simp
    · simpa [h] using fun he => h (bare_inj he)

theorem filter_absent {disk : List (List Char)} {name : List Char} (h : name ∉ disk) : disk.filter (· ≠ name) = disk := by
  rw [List.filter_eq_self]
  intro n hn
  simp only [decide_eq_true_eq]
  rintro rfl
  exact h hn

theorem drop_registered {f : Folder} (h : Registered f) {name : List Char} (hname : SelfName name) :
    drop f name = if name ∈ f.disk then (⟨f.disk.filter (· ≠ name), sessionOf (f.disk.filter (· ≠ name))⟩, true) else (f, false) := by
  unfold drop
  rw [hname, bare_known, if_pos rfl, h.session, filter_sessionOf]
  by_cases hm : name ∈ f.disk
  · simp only [if_pos hm]
  · simp only [if_neg hm]
    rw [filter_absent hm, ← h.eta]

/-- What a request does, with or without a server. -/
theorem perform_registered {f : Folder} (h : Registered f) (server : Bool) {op : NameOp} (hop : SelfName (nameIn op)) :
    perform server f op = match op with
      | .create name => if name ∈ f.disk then (f, false) else (⟨f.disk ++ [name], sessionOf (f.disk ++ [name])⟩, true)
      | .drop name => if name ∈ f.disk then (⟨f.disk.filter (· ≠ name), sessionOf (f.disk.filter (· ≠ name))⟩, true) else (f, false) := by
  cases op with
  | create name =>
    replace hop : SelfName name := hop
    unfold perform
    simp only
    cases server with
    | false => exact create_registered h hop
    | true =>
      show serverCreate f name = _
      unfold serverCreate
      rw [h.has, create_registered h hop]
      by_cases hm : name ∈ f.disk <;> simp [hm]
  | drop name =>
    replace hop : SelfName name := hop
    unfold perform
    simp only
    cases server with
    | false => exact drop_registered h hop
    | true =>
      show serverDrop f name = _
      unfold serverDrop
      rw [h.has, drop_registered h hop]
      by_cases hm : name ∈ f.disk <;> simp [hm]

theorem Registered.step {f : Folder} (h : Registered f) (server : Bool) {op : NameOp} (hop : SelfName (nameIn op)) :
    Registered (perform server f op).1 := by
  rw [perform_registered h server hop]
  cases op with
  | create name =>
    simp only
    split
    · exact h
    · rename_i hm
      refine ⟨rfl, ?_, ?_⟩
      · rw [List.nodup_append]
        exact ⟨h.nodup, by simp, fun a ha b hb => by rw [List.mem_singleton.mp hb]; rintro rfl; exact hm ha⟩
      · intro n hn
        rcases List.mem_append.mp hn with hn | hn
        · exact h.self n hn
        · rw [List.mem_singleton.mp hn]; exact hop
  | drop name =>
    simp only
    split
    · exact ⟨rfl, h.nodup.filter _, fun n hn => h.self n (List.mem_of_mem_filter hn)⟩
    · exact h

theorem registered_run (server : Bool) : ∀ (ops : List NameOp) (f : Folder), Registered f → (∀ op ∈ ops, SelfName (nameIn op)) →
    Registered (run server f ops)
  | [], _, h, _ => h
  | op :: ops, _, h, hs => registered_run server ops _ (h.step server (hs op (by simp))) fun o ho => hs o (by simp [ho])

theorem registered_empty : Registered emptyNames := ⟨by simp [emptyNames, sessionOf], List.nodup_nil, by simp [emptyNames]⟩

theorem openFolder_isSome {names : List (List Char)} (hs : ∀ n ∈ names, SelfName n) (hd : names.Nodup) :
    (openFolder names).isSome = true := by
  have h := (Registered.mk (f := ⟨names, sessionOf names⟩) rfl hd hs).opened
  rw [h]
  rfl

end ModelarDB.Lemmas
