import Verif.Spec.WriteAheadLog
import Mathlib.Data.List.Basic
import Mathlib.Data.List.Nodup
import Mathlib.Data.List.Perm.Basic
import Mathlib.Data.List.Pairwise
import Mathlib.Order.Basic
/-
An abstract view of the folder of a write-ahead log, for C15 to C19.
-/
namespace ModelarDB.Lemmas.Wal
open Model.Wal Spec.Wal

variable {β : Type}

/-- A segment: its first id and its batches. -/
abbrev Seg (β : Type) := Nat × List β

def key (s : Seg β) : Nat × Nat := (s.1, s.1 + s.2.length - 1)
def closedFile (s : Seg β) : File β := ⟨.closed s.1 (s.1 + s.2.length - 1), true, s.2⟩
def activeFile (s : Seg β) : File β := ⟨.active s.1, true, s.2⟩
def ids (s : Seg β) : List (Nat × β) := (List.range' s.1 s.2.length).zip s.2

def files (segs : List (Seg β)) (act : Option (Seg β)) : List (File β) :=
  segs.map closedFile ++ act.toList.map activeFile

def content (segs : List (Seg β)) (act : Option (Seg β)) : List (Nat × β) :=
  segs.flatMap ids ++ act.toList.flatMap ids

/-- The segments in the folder in order. -/
structure View (d : Disk β) (segs : List (Seg β)) (act : Option (Seg β)) : Prop where
  perm : d.Perm (files segs act)
  order : segs.Pairwise fun a b => a.1 + a.2.length ≤ b.1
  nonempty : ∀ s ∈ segs, s.2 ≠ []
  last : ∀ a ∈ act, ∀ s ∈ segs, s.1 + s.2.length ≤ a.1

theorem View.starts {d : Disk β} {segs : List (Seg β)} {act : Option (Seg β)} (h : View d segs act) :
    segs.Pairwise fun a b => a.1 < b.1 :=
  List.Pairwise.imp_of_mem (fun {a b} ha _ hab => by
    have := List.length_pos_iff.mpr (h.nonempty a ha)
    omega) h.order

theorem files_nodup {segs : List (Seg β)} {act : Option (Seg β)} (h : segs.Pairwise fun a b => a.1 < b.1) :
    ((files segs act).map File.name).Nodup := by
  unfold files
  rw [List.map_append, List.nodup_append, List.map_map, List.map_map]
  refine ⟨?_, ?_, ?_⟩
  · rw [List.nodup_map_iff_inj_on (l := segs) (h.imp fun hab e => by rw [e] at hab; exact absurd hab (Nat.lt_irrefl _))]
    intro x hx y hy e
    simp only [Function.comp, closedFile, Name.closed.injEq] at e
    by_contra hne
    have hp : segs.Pairwise fun a b => a.1 ≠ b.1 := h.imp fun hab => by omega
    have : Std.Symm fun a b : Seg β => a.1 ≠ b.1 := ⟨fun _ _ h => h.symm⟩
    exact List.Pairwise.forall (R := fun a b : Seg β => a.1 ≠ b.1) hp hx hy hne e.1
  · cases act <;> simp
  · intro a ha b hb e
    obtain ⟨s, _, rfl⟩ := List.mem_map.mp ha
    obtain ⟨t, _, rfl⟩ := List.mem_map.mp hb
    simp [closedFile, activeFile] at e

theorem open_of_mem {d : Disk β} (hn : (d.map File.name).Nodup) {f : File β} (hf : f ∈ d) : d.open f.name = some f := by
  unfold Disk.open
  induction d with
  | nil => cases hf
  | cons x d ih =>
    rw [List.map_cons, List.nodup_cons] at hn
    rcases List.mem_cons.mp hf with rfl | hf
    · simp
    · rw [List.find?_cons_of_neg]
      · exact ih hn.2 hf
      · have : x.name ≠ f.name := fun e => hn.1 (by rw [e]; exact List.mem_map_of_mem hf)
        simpa using this

theorem View.open {d : Disk β} {segs : List (Seg β)} {act : Option (Seg β)} (h : View d segs act) {f : File β}
    (hf : f ∈ files segs act) : d.open f.name = some f :=
  open_of_mem ((h.perm.map _).nodup_iff.mpr (files_nodup h.starts)) (h.perm.mem_iff.mpr hf)

theorem View.open_active {d : Disk β} {segs : List (Seg β)} {a : Seg β} (h : View d segs (some a)) :
    d.open (.active a.1) = some (activeFile a) := h.open (f := activeFile a) (by simp [files])

theorem View.open_closed {d : Disk β} {segs : List (Seg β)} {act : Option (Seg β)} (h : View d segs act) {s : Seg β}
    (hs : s ∈ segs) : d.open (.closed (key s).1 (key s).2) = some (closedFile s) :=
  h.open (f := closedFile s) (by simp only [files, List.mem_append]; exact Or.inl (List.mem_map_of_mem hs))

theorem View.schema {d : Disk β} {segs : List (Seg β)} {act : Option (Seg β)} (h : View d segs act) : ∀ f ∈ d, f.schema = true := by
  intro f hf
  have := h.perm.mem_iff.mp hf
  simp only [files, List.mem_append, List.mem_map] at this
  rcases this with ⟨s, _, rfl⟩ | ⟨s, _, rfl⟩ <;> rfl

theorem View.remove_active {d : Disk β} {segs : List (Seg β)} {a : Seg β} (h : View d segs (some a)) :
    View (d.remove (.active a.1)) segs none := by
  refine ⟨?_, h.order, h.nonempty, by simp⟩
  refine (h.perm.filter _).trans (List.Perm.of_eq ?_)
  simp [files, List.filter_append, List.filter_map, Function.comp_def, closedFile, activeFile]

/-- An active segment without batches is added. -/
theorem View.put_active {d : Disk β} {segs : List (Seg β)} (h : View d segs none) {start : Nat} {bs : List β}
    (hs : ∀ s ∈ segs, s.1 + s.2.length ≤ start) : View (d.put ⟨.active start, true, bs⟩) segs (some (start, bs)) := by
  refine ⟨?_, h.order, h.nonempty, by simpa using hs⟩
  unfold Disk.put
  have : d.remove (.active start) = d := by
    unfold Disk.remove
    rw [List.filter_eq_self]
    intro f hf
    have := h.perm.mem_iff.mp hf
    simp only [files, Option.toList_none, List.map_nil, List.append_nil, List.mem_map] at this
    obtain ⟨s, _, rfl⟩ := this
    simp [closedFile]
  show (d.remove (.active start) ++ _).Perm _
  rw [this]
  refine (h.perm.append_right _).trans (List.Perm.of_eq ?_)
  simp [files, activeFile]

/-- The active segment becomes a closed one. -/
theorem View.close {d : Disk β} {segs : List (Seg β)} {a : Seg β} (h : View d segs (some a)) (hne : a.2 ≠ []) :
    View ((d.remove (.active a.1)).put (closedFile a)) (segs ++ [a]) none := by
  have h1 := h.remove_active
  refine ⟨?_, ?_, ?_, by simp⟩
  · unfold Disk.put
    have : (d.remove (.active a.1)).remove (closedFile a).name = d.remove (.active a.1) := by
      rw [Disk.remove, List.filter_eq_self]
      intro f hf
      have := h1.perm.mem_iff.mp hf
      simp only [files, Option.toList_none, List.map_nil, List.append_nil, List.mem_map] at this
      obtain ⟨s, hs, rfl⟩ := this
      have h2 := h.last a (by simp) s hs
      have h3 := List.length_pos_iff.mpr (h.nonempty s hs)
      have : s.1 ≠ a.1 := by omega
      simp [closedFile, this]
    rw [this]
    refine (h1.perm.append_right _).trans (List.Perm.of_eq ?_)
    simp [files]
  · rw [List.pairwise_append]
    refine ⟨h.order, by simp, ?_⟩
    intro s hs b hb
    rw [List.mem_singleton.mp hb]
    exact h.last a (by simp) s hs
  · intro s hs
    rcases List.mem_append.mp hs with hs | hs
    · exact h.nonempty s hs
    · rw [List.mem_singleton.mp hs]; exact hne

theorem View.rename {d : Disk β} {segs : List (Seg β)} {a : Seg β} (h : View d segs (some a)) :
    d.rename (.active a.1) (.closed (key a).1 (key a).2) = some ((d.remove (.active a.1)).put (closedFile a)) := by
  unfold Disk.rename
  rw [h.open_active]
  rfl

/-- A batch is written to the active segment. -/
theorem View.write {d : Disk β} {segs : List (Seg β)} {a : Seg β} (h : View d segs (some a)) (b : β) :
    View (d.put (activeFile (a.1, a.2 ++ [b]))) segs (some (a.1, a.2 ++ [b])) := by
  refine ⟨?_, h.order, h.nonempty, by simpa using h.last⟩
  show (d.remove (.active a.1) ++ _).Perm _
  refine (h.remove_active.perm.append_right _).trans (List.Perm.of_eq ?_)
  simp [files]

theorem removeAll_snd (d : Disk β) (ns : List Name) : (removeAll d ns).2 = d.filter fun f => f.name ∉ ns := by
  induction ns generalizing d with
  | nil => simp [removeAll]
  | cons n ns ih =>
    rw [removeAll, ih, Disk.remove, List.filter_filter]
    refine List.filter_congr fun f _ => ?_
    simp [not_or, Bool.and_comm]

theorem removeAll_crash {d d' : Disk β} {ns : List Name} (h : d' ∈ (removeAll d ns).1) :
    ∃ pre, pre <+: ns ∧ d' = (removeAll d pre).2 := by
  induction ns generalizing d with
  | nil => cases h
  | cons n ns ih =>
    rw [removeAll] at h
    rcases List.mem_cons.mp h with rfl | h
    · exact ⟨[n], ⟨ns, rfl⟩, rfl⟩
    · obtain ⟨pre, ⟨t, rfl⟩, rfl⟩ := ih h
      exact ⟨n :: pre, ⟨t, rfl⟩, rfl⟩

/-- Closed segments are removed. -/
theorem View.removeAll {d : Disk β} {segs : List (Seg β)} {act : Option (Seg β)} (h : View d segs act) (K : List (Nat × Nat)) :
    View (Model.Wal.removeAll d (K.map fun s => .closed s.1 s.2)).2 (segs.filter fun s => key s ∉ K) act := by
  refine ⟨?_, h.order.filter _, fun s hs => h.nonempty s (List.mem_filter.mp hs).1,
    fun a ha s hs => h.last a ha s (List.mem_filter.mp hs).1⟩
  rw [removeAll_snd]
  refine (h.perm.filter _).trans (List.Perm.of_eq ?_)
  unfold files
  rw [List.filter_append, List.filter_map, List.filter_map]
  congr 1
  · congr 1
    refine List.filter_congr fun s _ => ?_
    by_cases hk : (s.1, s.1 + s.2.length - 1) ∈ K <;> simp [closedFile, key, hk]
  · congr 1
    rw [List.filter_eq_self]
    intro s _
    simp [activeFile]

theorem removeAll_append (d : Disk β) (a b : List Name) : (removeAll d (a ++ b)).2 = (removeAll (removeAll d a).2 b).2 := by
  induction a generalizing d with
  | nil => rfl
  | cons x a ih => simp [removeAll, ih]

theorem View.crash {d d' : Disk β} {segs : List (Seg β)} {act : Option (Seg β)} (h : View d segs act) {K : List (Nat × Nat)}
    (hd : d' ∈ (Model.Wal.removeAll d (K.map fun s => .closed s.1 s.2)).1) :
    ∃ pre, pre <+: K ∧ View d' (segs.filter fun s => key s ∉ pre) act := by
  obtain ⟨pre, hpre, rfl⟩ := removeAll_crash hd
  obtain ⟨t, ht⟩ := hpre
  obtain ⟨p, q, rfl, rfl, _⟩ := List.map_eq_append_iff.mp ht.symm
  exact ⟨p, ⟨q, rfl⟩, h.removeAll p⟩

/-- Ids of a segment. -/
theorem mem_ids {s : Seg β} {p : Nat × β} (h : p ∈ ids s) : s.1 ≤ p.1 ∧ p.1 < s.1 + s.2.length := by
  have := (List.of_mem_zip (a := p.1) (b := p.2) h).1
  rw [List.mem_range'_1] at this
  exact this

theorem isFullyPersisted_iff {P : List Nat} {s : Seg β} (hne : s.2 ≠ []) :
    isFullyPersisted P (key s) = true ↔ ∀ i, s.1 ≤ i → i < s.1 + s.2.length → i ∈ P := by
  have := List.length_pos_iff.mpr hne
  unfold isFullyPersisted key
  simp only [List.all_eq_true, List.mem_range'_1, List.contains_iff_mem]
  rw [show s.1 + s.2.length - 1 + 1 - s.1 = s.2.length by omega]
  exact ⟨fun h i h1 h2 => h i ⟨h1, h2⟩, fun h i hi => h i hi.1 hi.2⟩

/-- Removing persisted segments does not change what is not persisted. -/
theorem content_remove {segs : List (Seg β)} {act : Option (Seg β)} {commits : List Nat} {q : Seg β → Bool}
    (hq : ∀ s ∈ segs, q s = false → ∀ i, s.1 ≤ i → i < s.1 + s.2.length → i ∈ commits) :
    (content (segs.filter q) act).filter (fun p => p.1 ∉ commits) = (content segs act).filter fun p => p.1 ∉ commits := by
  unfold content
  rw [List.filter_append, List.filter_append]
  congr 1
  induction segs with
  | nil => rfl
  | cons s segs ih =>
    have ih := ih fun t ht => hq t (by simp [ht])
    rw [List.filter_cons, List.flatMap_cons, List.filter_append]
    split
    · rw [List.flatMap_cons, List.filter_append, ih]
    · rename_i hs
      have : (ids s).filter (fun p => p.1 ∉ commits) = [] := by
        rw [List.filter_eq_nil_iff]
        intro p hp
        obtain ⟨h1, h2⟩ := mem_ids hp
        simpa using hq s (by simp) (by simpa using hs) p.1 h1 h2
      rw [this, ih, List.nil_append]

/-- Ids in a folder are distinct and increasing. -/
theorem View.ids_pairwise {d : Disk β} {segs : List (Seg β)} {act : Option (Seg β)} (h : View d segs act) :
    (content segs act).Pairwise fun p q => p.1 < q.1 := by
  have hseg : ∀ s : Seg β, (ids s).Pairwise fun p q => p.1 < q.1 := by
    intro s
    unfold ids
    refine List.Pairwise.of_map (S := (· < ·)) Prod.fst (fun a b h => h) ?_
    rw [List.map_fst_zip (by simp)]
    exact List.pairwise_lt_range'
  unfold content
  rw [List.pairwise_append]
  refine ⟨?_, ?_, ?_⟩
  · rw [List.pairwise_flatMap]
    refine ⟨fun s _ => hseg s, h.order.imp fun {a b} hab x hx y hy => ?_⟩
    have := mem_ids hx
    have := mem_ids hy
    omega
  · cases act with
    | none => simp
    | some a => simpa using hseg a
  · intro x hx y hy
    obtain ⟨s, hs, hx⟩ := List.mem_flatMap.mp hx
    obtain ⟨a, ha, hy⟩ := List.mem_flatMap.mp hy
    have := h.last a (by simpa using ha) s hs
    have := mem_ids hx
    have := mem_ids hy
    omega

end ModelarDB.Lemmas.Wal
