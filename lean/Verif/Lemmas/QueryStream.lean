import Verif.Spec.Query
import Mathlib.Data.List.Forall2
import Mathlib.Tactic.Conv
/-
Lemmas about the streams that read time series tables.
-/
namespace ModelarDB.Lemmas
open Model.Query Spec

/-- Polling `s` gives these items after at most `k` polls, the stream is then finished and stays so. -/
inductive Yields {S α : Type} (poll : Poller S α) : Nat → S → List α → Prop
  | done {s} (h : poll s = (.done, s)) : Yields poll 0 s []
  | pending {s s' items k} (h : poll s = (.pending, s')) (rest : Yields poll k s' items) : Yields poll (k + 1) s items
  | item {s s' a items k} (h : poll s = (.item a, s')) (rest : Yields poll k s' items) : Yields poll (k + 1) s (a :: items)

theorem Yields.readsAs {S α : Type} {poll : Poller S α} {k : Nat} {s : S} {items : List α} (h : Yields poll k s items) :
    ReadsAs (fun s => some (poll s)) s items := by
  refine ⟨k + 1, ?_⟩
  induction h with
  | done h =>
    intro m hm
    obtain ⟨m, rfl⟩ := Nat.exists_eq_add_of_le' (Nat.one_le_iff_ne_zero.mpr (by omega : m ≠ 0))
    simp [drain, h]
  | pending h rest ih =>
    intro m hm
    obtain ⟨m, rfl⟩ := Nat.exists_eq_add_of_le' (Nat.one_le_iff_ne_zero.mpr (by omega : m ≠ 0))
    simp only [drain, h]
    exact ih m (by omega)
  | item h rest ih =>
    intro m hm
    obtain ⟨m, rfl⟩ := Nat.exists_eq_add_of_le' (Nat.one_le_iff_ne_zero.mpr (by omega : m ≠ 0))
    simp only [drain, h]
    rw [ih m (by omega)]

/-- Lists of at most `n` elements that are full except for the last. -/
def chunks {α : Type} (n : Nat) (l : List α) : List (List α) :=
  if _h : l = [] ∨ n = 0 then [] else l.take n :: chunks n (l.drop n)
termination_by l.length
decreasing_by
  have : 0 < l.length := List.length_pos_iff.mpr (fun h' => _h (.inl h'))
  simp only [List.length_drop]
  omega

theorem chunks_nil {α : Type} (n : Nat) : chunks n ([] : List α) = [] := by
  rw [chunks]; simp

theorem chunks_eq {α : Type} {n : Nat} (hn : 0 < n) {l : List α} (h : l ≠ []) : chunks n l = l.take n :: chunks n (l.drop n) := by
  rw [chunks, dif_neg]
  simp [h]
  omega

theorem chunks_flatten {α : Type} {n : Nat} (hn : 0 < n) (l : List α) : (chunks n l).flatten = l := by
  induction h : l.length using Nat.strongRecOn generalizing l with
  | ind k ih =>
    by_cases hl : l = []
    · subst hl; simp [chunks_nil]
    · rw [chunks_eq hn hl]
      have : 0 < l.length := List.length_pos_iff.mpr hl
      simp only [List.flatten_cons]
      rw [ih (l.drop n).length (by simp only [List.length_drop]; omega) _ rfl, List.take_append_drop]

theorem chunks_map {α β : Type} (f : α → β) {n : Nat} (hn : 0 < n) (l : List α) : chunks n (l.map f) = (chunks n l).map (List.map f) := by
  induction h : l.length using Nat.strongRecOn generalizing l with
  | ind k ih =>
    by_cases hl : l = []
    · subst hl; simp [chunks_nil]
    · have : 0 < l.length := List.length_pos_iff.mpr hl
      rw [chunks_eq hn hl, chunks_eq hn (by simpa using hl), ← List.map_take, ← List.map_drop,
        ih (l.drop n).length (by simp only [List.length_drop]; omega) _ rfl]
      rfl

theorem kept_append (p : Option (Point → Bool)) (a b : List Point) : kept p (a ++ b) = kept p a ++ kept p b := by
  cases p <;> simp [kept]

theorem kept_kept (p : Option (Point → Bool)) (a : List Point) : kept p (kept p a) = kept p a := by
  cases p <;> simp [kept]

theorem gridAndAppend_eq {σ : Type} (points : σ → List Point) (p : Option (Point → Bool)) (current : List Point) (offset : Nat)
    (batch : List σ) : gridAndAppend points p current offset batch = kept p (current.drop offset ++ batch.flatMap points) := by
  cases p <;> rfl

/-- What is left after a batch of data points was returned. -/
theorem emitNext_eq {S : Type} (n : Nat) (g : GridStream S) :
    ∃ g', emitNext n g = (.item ((g.current.drop g.offset).take n), g') ∧ g'.input = g.input ∧ g'.current = g.current ∧
      g'.current.drop g'.offset = (g.current.drop g.offset).drop n := by
  refine ⟨⟨g.input, g.current, g.offset + ((g.current.drop g.offset).take n).length⟩, ?_, rfl, rfl, ?_⟩
  · have htake : (g.current.drop g.offset).take (min n (g.current.length - g.offset)) = (g.current.drop g.offset).take n := by
      rw [← List.length_drop, List.take_eq_take_iff]
      simp
    unfold emitNext
    simp only [htake]
  · simp only [List.length_take, List.length_drop, List.drop_drop]
    by_cases h : n ≤ g.current.length - g.offset
    · congr 1; omega
    · rw [List.drop_eq_nil_iff.mpr (by omega), List.drop_eq_nil_iff.mpr (by omega)]

/-- One chunk is returned and the rest follow. -/
theorem chunks_step {α : Type} {n : Nat} (hn : 0 < n) {front rest : List α} {items : List (List α)} {e : Nat}
    (h : n ≤ front.length ∨ rest = []) (hne : front ≠ [])
    (hitems : items = chunks n (front.drop n ++ rest) ++ List.replicate e []) :
    front.take n :: items = chunks n (front ++ rest) ++ List.replicate e [] := by
  rw [chunks_eq hn (by simp [hne]), hitems]
  rcases h with h | h
  · rw [List.take_append_of_le_length h, List.drop_append_of_le_length h]
    rfl
  · subst h
    simp

theorem kept_drop {p : Option (Point → Bool)} {l : List Point} (h : kept p l = l) (n : Nat) : kept p (l.drop n) = l.drop n := by
  cases p with
  | none => rfl
  | some q =>
    simp only [kept] at h ⊢
    rw [List.filter_eq_self] at h ⊢
    exact fun a ha => h a (List.mem_of_mem_drop ha)

section Grid
variable {σ : Type} (points : σ → List Point) (p : Option (Point → Bool)) (n : Nat)

/-- What `GridStream` returns if `left` are the data points that are left and `batches` the batches that follow. -/
def GridItems (left : List Point) (batches : List (List σ)) (items : List (List Point)) : Prop :=
  items.flatten = left ++ kept p (batches.flatten.flatMap points) ∧
  (FullBatches points p n batches → ∃ e, items = chunks n (left ++ kept p (batches.flatten.flatMap points)) ++ List.replicate e [])

theorem gridItems_step {left : List Point} {batches : List (List σ)} {items : List (List Point)} (hn : 0 < n)
    (hfull : n ≤ left.length ∨ batches = []) (hne : left ≠ []) (h : GridItems points p n (left.drop n) batches items) :
    GridItems points p n left batches (left.take n :: items) := by
  obtain ⟨h1, h2⟩ := h
  refine ⟨?_, fun hb => ?_⟩
  · rw [List.flatten_cons, h1, ← List.append_assoc, List.take_append_drop]
  · obtain ⟨e, he⟩ := h2 hb
    refine ⟨e, chunks_step hn ?_ hne he⟩
    rcases hfull with h | rfl
    · exact .inl h
    · right
      cases p <;> rfl

theorem gridItems_cons {left : List Point} {b : List σ} {batches : List (List σ)} {items : List (List Point)} (hn : 0 < n)
    (h : GridItems points p n ((left ++ kept p (b.flatMap points)).drop n) batches items) :
    GridItems points p n left (b :: batches) ((left ++ kept p (b.flatMap points)).take n :: items) := by
  have hall : left ++ kept p ((b :: batches).flatten.flatMap points) =
      left ++ kept p (b.flatMap points) ++ kept p (batches.flatten.flatMap points) := by
    rw [List.flatten_cons, List.flatMap_append, kept_append, List.append_assoc]
  refine ⟨?_, fun hb => ?_⟩
  · rw [hall, List.flatten_cons, h.1, ← List.append_assoc, List.take_append_drop]
  · obtain ⟨e, he⟩ := h.2 (by
      intro x hx
      refine hb x ?_
      cases batches with
      | nil => cases hx
      | cons y ys => exact List.mem_cons_of_mem _ hx)
    rw [hall]
    by_cases hne : left ++ kept p (b.flatMap points) = []
    · cases batches with
      | nil =>
        refine ⟨e + 1, ?_⟩
        have hnil : kept p (([] : List (List σ)).flatten.flatMap points) = [] := by cases p <;> rfl
        rw [he, hnil, hne]
        simp [chunks_nil, List.replicate_succ]
      | cons y ys =>
        have := hb b (by simp)
        rw [(List.append_eq_nil_iff.mp hne).2] at this
        simp at this
        omega
    · refine ⟨e, chunks_step hn ?_ hne he⟩
      cases batches with
      | nil => right; cases p <;> rfl
      | cons y ys =>
        left
        have := hb b (by simp)
        rw [List.length_append]
        omega

/-- **GridStream** returns all data points that are left and those of all events. -/
theorem grid_yields (hn : 0 < n) (events : List (Event (List σ))) (hok : NeverFails events) :
    ∀ g : GridStream (List (Event (List σ))), g.input = events → kept p (g.current.drop g.offset) = g.current.drop g.offset →
      ∃ k items, Yields (pollGrid points p n pollEvents) k g items ∧
        GridItems points p n (g.current.drop g.offset) (itemsOf events) items := by
  induction events with
  | nil =>
    intro g hg hk
    induction hlen : (g.current.drop g.offset).length using Nat.strongRecOn generalizing g with
    | ind len ih =>
      by_cases hempty : g.current.drop g.offset = []
      · refine ⟨0, [], .done ?_, ?_, fun _ => ⟨0, ?_⟩⟩
        · have h0 : g.current.length - g.offset = 0 := by rw [← List.length_drop, hempty]; rfl
          rw [pollGrid, if_pos (by omega), hg]
          simp only [pollEvents]
          rw [if_neg (by omega), ← hg]
        · rw [hempty]; cases p <;> rfl
        · rw [hempty]; cases p <;> simp [itemsOf, kept, chunks_nil]
      · have hpos : 0 < (g.current.drop g.offset).length := List.length_pos_iff.mpr hempty
        obtain ⟨g', he, hi, hc, hd'⟩ := emitNext_eq n g
        have hpoll : pollGrid points p n pollEvents g = (.item ((g.current.drop g.offset).take n), g') := by
          rw [pollGrid]
          split
          · rw [hg]
            simp only [pollEvents]
            rw [List.length_drop] at hpos
            rw [if_pos (by omega)]
            have : ({ g with input := [] } : GridStream (List (Event (List σ)))) = g := by rw [← hg]
            rw [this, he]
          · exact he
        obtain ⟨k, items, hy, hf⟩ := ih _ (by rw [hd', List.length_drop]; omega) g' (hi.trans hg)
          (by rw [hd']; exact kept_drop hk n) rfl
        rw [hd'] at hf
        exact ⟨k + 1, _, .item hpoll hy, gridItems_step points p n hn (.inr rfl) hempty hf⟩
  | cons e events ih =>
    intro g hg hk
    have hok' : NeverFails events := fun e he => hok e (List.mem_cons_of_mem _ he)
    induction hlen : (g.current.drop g.offset).length using Nat.strongRecOn generalizing g with
    | ind len ihlen =>
      by_cases hfull : g.current.length - g.offset < n
      · cases e with
        | error => exact absurd rfl (hok _ List.mem_cons_self)
        | pending =>
          obtain ⟨k, items, hy, hf⟩ := ih hok' { g with input := events } rfl hk
          refine ⟨k + 1, items, .pending ?_ hy, hf⟩
          rw [pollGrid, if_pos hfull, hg]
          rfl
        | item b =>
          have happ := gridAndAppend_eq points p g.current g.offset b
          rw [kept_append, hk] at happ
          obtain ⟨g', he', hi', hc', hd'⟩ := emitNext_eq n (⟨events, gridAndAppend points p g.current g.offset b, 0⟩ : GridStream _)
          simp only [List.drop_zero] at he' hd'
          rw [happ] at hd'
          obtain ⟨k, items, hy, hf⟩ := ih hok' g' hi'
            (by rw [hd']; exact kept_drop (by rw [kept_append, hk, kept_kept]) n)
          rw [hd'] at hf
          refine ⟨k + 1, _, .item ?_ hy, gridItems_cons points p n hn hf⟩
          rw [pollGrid, if_pos hfull, hg, ← happ]
          exact he'
      · have hpos : 0 < (g.current.drop g.offset).length := by rw [List.length_drop]; omega
        obtain ⟨g₀, he, hi, hc, hd⟩ := emitNext_eq n g
        obtain ⟨k, items, hy, hf⟩ := ihlen _ (by rw [hd, List.length_drop]; omega) g₀ (hi.trans hg)
          (by rw [hd]; exact kept_drop hk n) rfl
        rw [hd] at hf
        refine ⟨k + 1, _, .item ?_ hy, gridItems_step points p n hn (.inl ?_) (List.length_pos_iff.mp hpos) hf⟩
        · rw [pollGrid, if_neg hfull, he]
        · rw [List.length_drop]; omega

end Grid

/-! ### The join -/

/-- The batch of an input and what the input still gives. -/
inductive SlotYields {S : Type} (poll : Poller S (List Point)) : Nat → Option (List Point) × S → List (List Point) → Prop
  | none {k s items} (h : Yields poll k s items) : SlotYields poll k (none, s) items
  | some {k s items b} (h : Yields poll k s items) : SlotYields poll k (some b, s) (b :: items)

/-- The number of polls of a list of inputs. -/
def polls (ys : List (Nat × List (List Point))) : Nat := (ys.map Prod.fst).sum

/-- Every input gives its items. -/
def AllYield {S : Type} (poll : Poller S (List Point)) (slots : List (Option (List Point) × S)) (ys : List (Nat × List (List Point))) : Prop :=
  List.Forall₂ (fun slot y => SlotYields poll y.1 slot y.2) slots ys

set_option linter.unusedSimpArgs false in
theorem pollInputs_yields {S : Type} {poll : Poller S (List Point)} {slots : List (Option (List Point) × S)}
    {ys : List (Nat × List (List Point))} (h : AllYield poll slots ys) (reason : Option (Poll (List Point))) :
    ∃ ys', AllYield poll (pollInputs poll reason slots).2 ys' ∧ ys'.map Prod.snd = ys.map Prod.snd ∧ polls ys' ≤ polls ys ∧
      ((pollInputs poll reason slots).1 = reason ∧ (∀ slot ∈ (pollInputs poll reason slots).2, slot.1.isSome) ∨
        (pollInputs poll reason slots).1 = some .pending ∧ polls ys' < polls ys ∨
        (pollInputs poll reason slots).1 = some .done ∧ ∃ y ∈ ys, y.2 = []) := by
  induction h generalizing reason with
  | nil => exact ⟨[], .nil, rfl, Nat.le_refl _, .inl ⟨rfl, by simp [pollInputs]⟩⟩
  | @cons slot y slots ys hslot _ ih =>
    obtain ⟨k, items⟩ := y
    cases hslot with
    | some hy =>
      obtain ⟨ys', h1, h2, h3, h4⟩ := ih reason
      refine ⟨_ :: ys', List.Forall₂.cons (SlotYields.some hy) h1, by simp [h2], by simp only [polls, List.map_cons, List.sum_cons, Nat.add_eq, Nat.add_zero] at h3 ⊢; omega, ?_⟩
      simp only [pollInputs]
      rcases h4 with ⟨h, h'⟩ | ⟨h, h'⟩ | ⟨h, z, hz, h'⟩
      · exact .inl ⟨h, by simpa using h'⟩
      · exact .inr (.inl ⟨h, by simp only [polls, List.map_cons, List.sum_cons, Nat.add_eq, Nat.add_zero] at h' ⊢; omega⟩)
      · exact .inr (.inr ⟨h, z, List.mem_cons_of_mem _ hz, h'⟩)
    | none hy =>
      cases hy with
      | @done s hp =>
        obtain ⟨ys', h1, h2, h3, h4⟩ := ih (some .done)
        refine ⟨(0, []) :: ys', ?_, by simp [h2], by simp only [polls, List.map_cons, List.sum_cons, Nat.add_eq, Nat.add_zero] at h3 ⊢; omega, ?_⟩
        · simp only [pollInputs, hp]
          exact List.Forall₂.cons (SlotYields.none (.done hp)) h1
        · simp only [pollInputs, hp]
          rcases h4 with ⟨h, h'⟩ | ⟨h, h'⟩ | ⟨h, z, hz, h'⟩
          · exact .inr (.inr ⟨h, _, List.mem_cons_self, rfl⟩)
          · exact .inr (.inl ⟨h, by simp only [polls, List.map_cons, List.sum_cons, Nat.add_eq, Nat.add_zero] at h' ⊢; omega⟩)
          · exact .inr (.inr ⟨h, z, List.mem_cons_of_mem _ hz, h'⟩)
      | @pending s s' _ k hp hrest =>
        obtain ⟨ys', h1, h2, h3, h4⟩ := ih (some .pending)
        refine ⟨(k, items) :: ys', ?_, by simp [h2], by simp only [polls, List.map_cons, List.sum_cons, Nat.add_eq, Nat.add_zero] at h3 ⊢; omega, ?_⟩
        · simp only [pollInputs, hp]
          exact List.Forall₂.cons (SlotYields.none hrest) h1
        · simp only [pollInputs, hp]
          rcases h4 with ⟨h, h'⟩ | ⟨h, h'⟩ | ⟨h, z, hz, h'⟩
          · exact .inr (.inl ⟨h, by simp only [polls, List.map_cons, List.sum_cons, Nat.add_eq, Nat.add_zero] at h3 ⊢; omega⟩)
          · exact .inr (.inl ⟨h, by simp only [polls, List.map_cons, List.sum_cons, Nat.add_eq, Nat.add_zero] at h' ⊢; omega⟩)
          · exact .inr (.inr ⟨h, z, List.mem_cons_of_mem _ hz, h'⟩)
      | @item s s' a items k hp hrest =>
        obtain ⟨ys', h1, h2, h3, h4⟩ := ih reason
        refine ⟨(k, a :: items) :: ys', ?_, by simp [h2], by simp only [polls, List.map_cons, List.sum_cons, Nat.add_eq, Nat.add_zero] at h3 ⊢; omega, ?_⟩
        · simp only [pollInputs, hp]
          exact List.Forall₂.cons (SlotYields.some hrest) h1
        · simp only [pollInputs, hp]
          rcases h4 with ⟨h, h'⟩ | ⟨h, h'⟩ | ⟨h, z, hz, h'⟩
          · exact .inl ⟨h, by simpa using h'⟩
          · exact .inr (.inl ⟨h, by simp only [polls, List.map_cons, List.sum_cons, Nat.add_eq, Nat.add_zero] at h' ⊢; omega⟩)
          · exact .inr (.inr ⟨h, z, List.mem_cons_of_mem _ hz, h'⟩)

/-- If all inputs have a batch they are the first items. -/
theorem allBatches_yields {S : Type} {poll : Poller S (List Point)} {slots : List (Option (List Point) × S)}
    {ys : List (Nat × List (List Point))} (h : AllYield poll slots ys) (hsome : ∀ slot ∈ slots, slot.1.isSome) :
    ∃ bs rests, allBatches slots = some bs ∧ ys.map Prod.snd = List.zipWith List.cons bs rests ∧ bs.length = ys.length ∧
      rests.length = ys.length ∧
      AllYield poll (slots.map fun slot => (none, slot.2)) (List.zipWith (fun y rest => (y.1, rest)) ys rests) := by
  induction h with
  | nil => exact ⟨[], [], rfl, rfl, rfl, rfl, .nil⟩
  | @cons slot y slots ys hslot _ ih =>
    obtain ⟨k, items⟩ := y
    obtain ⟨bs, rests, h1, h2, h3, h4, h5⟩ := ih fun s hs => hsome s (List.mem_cons_of_mem _ hs)
    cases hslot with
    | none hy => simp at hsome
    | @some s items b hy =>
      refine ⟨b :: bs, items :: rests, by simp [allBatches, h1], by simp [h2], by simp [h3], by simp [h4], ?_⟩
      exact List.Forall₂.cons (SlotYields.none hy) h5

theorem smallest_eq {batches : List (List Point)} {n : Nat} (hne : batches ≠ []) (h : ∀ b ∈ batches, b.length = n) : smallest batches = n := by
  induction batches with
  | nil => exact absurd rfl hne
  | cons b bs ih =>
    cases bs with
    | nil => exact h b (by simp)
    | cons c cs =>
      rw [smallest, ih (by simp) fun x hx => h x (List.mem_cons_of_mem _ hx), h b (by simp), Nat.min_self]
      simp

theorem sliceToSmallest_eq {batches : List (List Point)} {n : Nat} (h : ∀ b ∈ batches, b.length = n) : sliceToSmallest batches = batches := by
  by_cases hne : batches = []
  · subst hne; rfl
  · unfold sliceToSmallest
    rw [smallest_eq hne h]
    conv_rhs => rw [← List.map_id batches]
    refine List.map_congr_left fun b hb => ?_
    rw [← h b hb, List.take_length]
    rfl

theorem mapM_some {α β : Type} {f : α → Option β} {g : α → β} {l : List α} (h : ∀ a ∈ l, f a = some (g a)) : l.mapM f = some (l.map g) := by
  induction l with
  | nil => rfl
  | cons a l ih =>
    rw [List.mapM_cons, h a (by simp), ih fun b hb => h b (List.mem_cons_of_mem _ hb)]
    rfl

/-- A tag with a free name is found among the tags. -/
theorem tagColumn_free {tagNames : List String} {name : String} {j : Nat} (hfree : FreeName name) (hj : tagNames.findIdx? (· == name) = some j)
    (batch : List Point) : tagColumn tagNames name batch = batch.mapM fun point => point.tags[j]?.map Cell.tag := by
  have h : ("timestamp" :: "value" :: tagNames).findIdx? (· == name) = some (j + 2) := by
    have h1 : ("timestamp" == name) = false := beq_eq_false_iff_ne.mpr hfree.1.symm
    have h2 : ("value" == name) = false := beq_eq_false_iff_ne.mpr hfree.2.symm
    rw [List.findIdx?_cons, h1, List.findIdx?_cons, h2, hj]
    rfl
  unfold tagColumn
  rw [h]

/-- The columns of a batch of rows. -/
theorem joinColumns_rows (tagNames : List String) (first : List Point) (c : List TableRow)
    (hfirst : first.map (fun p => (p.time, p.tags)) = c.map fun row => (row.time, row.tags))
    (htags : ∀ row ∈ c, row.tags.length = tagNames.length) :
    ∀ (order : List JoinColumn) (fields : List Nat), (∀ name, .tag name ∈ order → name ∈ tagNames ∧ FreeName name) →
      order.count .field ≤ fields.length →
      ∃ columns, joinColumns tagNames first order (fields.map fun i => c.map (TableRow.point i)) = some columns ∧
        (∀ column ∈ columns, column.length = c.length) ∧ columns.length = order.length ∧
        ∀ (i : Nat) (hi : i < c.length), cellsOf tagNames c[i] order fields = some (columns.filterMap (·[i]?)) := by
  have hlen : first.length = c.length := by simpa using congrArg List.length hfirst
  have hget : ∀ (i : Nat) (hi : i < c.length), first[i].time = c[i].time ∧ first[i].tags = c[i].tags := by
    intro i hi
    have := congrArg (·[i]?) hfirst
    simp only [List.getElem?_map, List.getElem?_eq_getElem hi, List.getElem?_eq_getElem (hlen ▸ hi), Option.map_some, Option.some.injEq,
      Prod.mk.injEq] at this
    exact this
  intro order
  induction order with
  | nil => intro fields _ _; exact ⟨[], rfl, by simp, rfl, fun i hi => rfl⟩
  | cons column order ih =>
    intro fields hnames hcount
    have hnames' : ∀ name, .tag name ∈ order → name ∈ tagNames ∧ FreeName name := fun name h => hnames name (List.mem_cons_of_mem _ h)
    cases column with
    | timestamp =>
      obtain ⟨columns, h1, h2, h3, h4⟩ := ih fields hnames' (by simpa using hcount)
      refine ⟨(first.map fun point => Cell.time point.time) :: columns, by simp only [joinColumns, h1, Option.map_some], ?_, by simp [h3], fun i hi => ?_⟩
      · intro column hc
        rcases List.mem_cons.mp hc with rfl | hc
        · simp [hlen]
        · exact h2 column hc
      · simp only [cellsOf, h4 i hi, Option.map_some]
        rw [List.filterMap_cons_some (b := .time c[i].time)]
        simp only [List.getElem?_map, List.getElem?_eq_getElem (hlen ▸ hi : i < first.length), Option.map_some, (hget i hi).1]
    | field =>
      cases fields with
      | nil => simp at hcount
      | cons f fields =>
        obtain ⟨columns, h1, h2, h3, h4⟩ := ih fields hnames' (by simpa using hcount)
        refine ⟨((c.map (TableRow.point f)).map fun point => Cell.value point.value) :: columns,
          by simp only [List.map_cons, joinColumns, h1, Option.map_some], ?_, by simp [h3], fun i hi => ?_⟩
        · intro column hc
          rcases List.mem_cons.mp hc with rfl | hc
          · simp
          · exact h2 column hc
        · simp only [cellsOf, h4 i hi, Option.map_some]
          rw [List.filterMap_cons_some (b := .value (c[i].values f))]
          simp only [List.getElem?_map, List.getElem?_eq_getElem hi, Option.map_some, TableRow.point]
    | tag name =>
      obtain ⟨columns, h1, h2, h3, h4⟩ := ih fields hnames' (by simpa using hcount)
      obtain ⟨hname, hfree⟩ := hnames name (by simp)
      obtain ⟨j, hj⟩ : ∃ j, tagNames.findIdx? (· == name) = some j := by
        rw [← Option.isSome_iff_exists, List.findIdx?_isSome]
        simp [hname]
      have hjlt : j < tagNames.length := (List.findIdx?_eq_some_iff_getElem.mp hj).1
      have hcol : tagColumn tagNames name first = some (first.map fun p => Cell.tag (p.tags.getD j "")) := by
        rw [tagColumn_free hfree hj, mapM_some]
        intro p hp
        obtain ⟨i, hi, rfl⟩ := List.getElem_of_mem hp
        have hi' : i < c.length := hlen ▸ hi
        have : j < first[i].tags.length := by rw [(hget i hi').2, htags _ (List.getElem_mem hi')]; exact hjlt
        simp [List.getElem?_eq_getElem this]
      refine ⟨(first.map fun p => Cell.tag (p.tags.getD j "")) :: columns,
        by simp only [joinColumns, hcol, h1, Option.map_some, Option.bind_some], ?_, by simp [h3], fun i hi => ?_⟩
      · intro column hc
        rcases List.mem_cons.mp hc with rfl | hc
        · simp [hlen]
        · exact h2 column hc
      · have hjt : j < c[i].tags.length := by rw [htags _ (List.getElem_mem hi)]; exact hjlt
        simp only [cellsOf, hj, h4 i hi, List.getElem?_eq_getElem hjt, bind, Option.bind_some, pure]
        rw [List.filterMap_cons_some (b := .tag (c[i].tags[j]))]
        simp only [List.getElem?_map, List.getElem?_eq_getElem (hlen ▸ hi : i < first.length), Option.map_some]
        congr 2
        rw [(hget i hi).2]
        simp [List.getElem?_eq_getElem hjt]

/-- The rows of a batch that is returned are the rows of the batches of the inputs. -/
theorem sortedJoin_rows {tagNames : List String} {order : List JoinColumn} {fields : List Nat} (ha : Answerable tagNames order fields)
    (c : List TableRow) (htags : ∀ row ∈ c, row.tags.length = tagNames.length) :
    ∃ columns, sortedJoin tagNames order (sliceToSmallest (fields.map fun i => c.map (TableRow.point i))) = some columns ∧
      (rowsOfColumns columns).map some = c.map fun row => cellsOf tagNames row order fields := by
  rw [sliceToSmallest_eq (n := c.length) (by simp)]
  obtain ⟨hcols, hin, hnames, hcount⟩ := ha
  cases fields with
  | nil => exact absurd rfl hin
  | cons f fields =>
    obtain ⟨columns, h1, h2, h3, h4⟩ := joinColumns_rows tagNames (c.map (TableRow.point f)) c (by simp [TableRow.point]) htags order
      (f :: fields) hnames hcount
    refine ⟨columns, ?_, ?_⟩
    · simp only [List.map_cons] at h1 ⊢
      rw [sortedJoin, if_neg (by simpa using hcols), h1]
    · cases columns with
      | nil => exact absurd (List.length_eq_zero_iff.mp h3.symm) hcols
      | cons column columns =>
        unfold rowsOfColumns
        dsimp only
        rw [h2 column (by simp)]
        apply List.ext_getElem
        · simp
        · intro i hi hi'
          simp only [List.getElem_map, List.getElem_range]
          exact (h4 i (by simpa using hi')).symm

/-- The items of the inputs if their batches have the same rows, except for empty batches at the end. -/
def itemsFor (cs : List (List TableRow)) (i : Nat) (e : Nat) : List (List Point) :=
  cs.map (List.map (TableRow.point i)) ++ List.replicate e []

theorem zipWith_cons_inj {α : Type} {bs bs' : List α} {rests rests' : List (List α)} (h1 : bs.length = rests.length)
    (h2 : bs'.length = rests'.length) (h : List.zipWith List.cons bs rests = List.zipWith List.cons bs' rests') :
    bs = bs' ∧ rests = rests' := by
  induction bs generalizing rests bs' rests' with
  | nil =>
    cases rests with
    | cons r rs => simp at h1
    | nil =>
      cases bs' with
      | nil => cases rests' with
        | nil => exact ⟨rfl, rfl⟩
        | cons r rs => simp at h2
      | cons b bs' => cases rests' with
        | nil => simp at h2
        | cons r rs => simp at h
  | cons b bs ih =>
    cases rests with
    | nil => simp at h1
    | cons r rs =>
      cases bs' with
      | nil => simp at h
      | cons b' bs' => cases rests' with
        | nil => simp at h2
        | cons r' rs' =>
          simp only [List.zipWith_cons_cons, List.cons.injEq] at h
          obtain ⟨⟨rfl, rfl⟩, h⟩ := h
          obtain ⟨rfl, rfl⟩ := ih (by simpa using h1) (by simpa using h2) h
          exact ⟨rfl, rfl⟩

/-- The first batches of the inputs hold the same rows. -/
theorem itemsFor_split {fields es : List Nat} (cs : List (List TableRow)) (hlen : es.length = fields.length)
    {bs : List (List Point)} {rests : List (List (List Point))} (h1 : bs.length = fields.length) (h2 : rests.length = fields.length)
    (h : List.zipWith (itemsFor cs) fields es = List.zipWith List.cons bs rests) :
    ∃ c cs' es', bs = (fields.map fun i => c.map (TableRow.point i)) ∧ rests = List.zipWith (itemsFor cs') fields es' ∧
      es'.length = fields.length ∧ cs.flatten = c ++ cs'.flatten ∧ ∀ row ∈ c, row ∈ cs.flatten := by
  cases cs with
  | cons c cs =>
    refine ⟨c, cs, es, ?_⟩
    have heq : List.zipWith (itemsFor (c :: cs)) fields es =
        List.zipWith List.cons (fields.map fun i => c.map (TableRow.point i)) (List.zipWith (itemsFor cs) fields es) := by
      clear h h1 h2
      induction fields generalizing es with
      | nil => rfl
      | cons f fs ih =>
        cases es with
        | nil => simp at hlen
        | cons e es =>
          simp only [List.zipWith_cons_cons, List.map_cons]
          rw [ih (by simpa using hlen)]
          rfl
    rw [heq] at h
    obtain ⟨rfl, rfl⟩ := zipWith_cons_inj (by simp [hlen]) (by rw [h1, h2]) h
    exact ⟨rfl, rfl, hlen, rfl, fun row hr => by simp [hr]⟩
  | nil =>
    refine ⟨[], [], es.map (· - 1), ?_⟩
    have hpos : ∀ e ∈ es, 0 < e := by
      intro e he
      obtain ⟨j, hj, rfl⟩ := List.getElem_of_mem he
      have := congrArg (·[j]?) h
      rw [List.getElem?_zipWith, List.getElem?_zipWith, List.getElem?_eq_getElem hj, List.getElem?_eq_getElem (by omega : j < fields.length),
        List.getElem?_eq_getElem (by omega : j < bs.length), List.getElem?_eq_getElem (by omega : j < rests.length)] at this
      simp only [itemsFor, List.map_nil, List.nil_append, Option.some.injEq] at this
      rcases Nat.eq_zero_or_pos es[j] with h0 | h0
      · rw [h0] at this; simp at this
      · exact h0
    have heq : List.zipWith (itemsFor []) fields es =
        List.zipWith List.cons (fields.map fun i => ([] : List TableRow).map (TableRow.point i))
          (List.zipWith (itemsFor []) fields (es.map (· - 1))) := by
      clear h h1 h2
      induction fields generalizing es with
      | nil => rfl
      | cons f fs ih =>
        cases es with
        | nil => simp at hlen
        | cons e es =>
          simp only [List.zipWith_cons_cons, List.map_cons]
          rw [ih (by simpa using hlen) fun e he => hpos e (List.mem_cons_of_mem _ he)]
          simp only [List.cons.injEq, and_true, itemsFor, List.map_nil, List.nil_append]
          obtain ⟨e, rfl⟩ := Nat.exists_eq_add_of_le' (hpos e (by simp))
          simp [List.replicate_succ]
    rw [heq] at h
    obtain ⟨rfl, rfl⟩ := zipWith_cons_inj (by simp [hlen]) (by rw [h1, h2]) h
    exact ⟨rfl, rfl, by simp [hlen], rfl, by simp⟩

/-- The measure for reading a join. -/
def size (ys : List (Nat × List (List Point))) : Nat := polls ys + ((ys.map Prod.snd).map List.length).sum

theorem size_rests {ys : List (Nat × List (List Point))} {bs : List (List Point)} {rests : List (List (List Point))}
    (h : ys.map Prod.snd = List.zipWith List.cons bs rests) (h1 : bs.length = ys.length) (h2 : rests.length = ys.length) :
    size (List.zipWith (fun y rest => (y.1, rest)) ys rests) + ys.length = size ys := by
  induction ys generalizing bs rests with
  | nil => cases rests <;> rfl
  | cons y ys ih =>
    cases bs with
    | nil => simp at h1
    | cons b bs =>
      cases rests with
      | nil => simp at h2
      | cons r rests =>
        simp only [List.map_cons, List.zipWith_cons_cons, List.cons.injEq] at h
        have := ih h.2 (by simpa using h1) (by simpa using h2)
        simp only [size, polls, List.zipWith_cons_cons, List.map_cons, List.sum_cons, List.length_cons, h.1] at this ⊢
        omega

theorem map_snd_zipWith {ys : List (Nat × List (List Point))} {rests : List (List (List Point))} (h : rests.length = ys.length) :
    (List.zipWith (fun y rest => (y.1, rest)) ys rests).map Prod.snd = rests := by
  induction ys generalizing rests with
  | nil => cases rests <;> simp_all
  | cons y ys ih => cases rests with
    | nil => simp at h
    | cons r rests => simp only [List.zipWith_cons_cons, List.map_cons]; rw [ih (by simpa using h)]

/-- Reading a join whose inputs have batches with the same rows. -/
theorem join_reads {S : Type} {poll : Poller S (List Point)} {tagNames : List String} {order : List JoinColumn} {fields : List Nat}
    (ha : Answerable tagNames order fields) (cs : List (List TableRow)) (htags : ∀ row ∈ cs.flatten, row.tags.length = tagNames.length)
    (slots : List (Option (List Point) × S)) (ys : List (Nat × List (List Point))) (es : List Nat) (hes : es.length = fields.length)
    (hy : AllYield poll slots ys) (hitems : ys.map Prod.snd = List.zipWith (itemsFor cs) fields es) :
    ∃ out, ReadsAs (pollJoin tagNames order poll) slots out ∧
      (out.flatMap rowsOfColumns).map some = cs.flatten.map fun row => cellsOf tagNames row order fields := by
  induction hsize : size ys using Nat.strongRecOn generalizing cs slots ys es with
  | ind sz ih =>
    obtain ⟨ys', h1, h2, h3, h4⟩ := pollInputs_yields hy none
    have hlenys : ys'.length = fields.length := by
      have := congrArg List.length (h2.trans hitems)
      simpa [hes] using this
    have hyslen : ys.length = fields.length := by
      have := congrArg List.length hitems
      simpa [hes] using this
    rcases h4 with ⟨hr, hsome⟩ | ⟨hr, hlt⟩ | ⟨hr, y, hy0, hnil⟩
    · obtain ⟨bs, rests, b1, b2, b3, b4, b5⟩ := allBatches_yields h1 hsome
      obtain ⟨c, cs', es', e1, e2, e3, e4, e5⟩ := itemsFor_split cs hes (b3.trans hlenys) (b4.trans hlenys)
        (by rw [← hitems, ← h2, b2])
      obtain ⟨columns, j1, j2⟩ := sortedJoin_rows ha c fun row hrow => htags row (e5 row hrow)
      have hsz := size_rests b2 b3 b4
      have hpos : 0 < fields.length := List.length_pos_iff.mpr ha.inputs
      have hszle : size ys' ≤ size ys := by
        unfold size; rw [h2]; omega
      obtain ⟨out, ⟨n, hn⟩, hout⟩ := ih _ (by rw [← hsize]; omega) cs'
        (fun row hrow => htags row (by rw [e4]; exact List.mem_append_right _ hrow)) _ _ es' e3 b5
        (by rw [map_snd_zipWith b4, e2]) rfl
      refine ⟨columns :: out, ⟨n + 1, fun m hm => ?_⟩, ?_⟩
      · obtain ⟨m, rfl⟩ := Nat.exists_eq_add_of_le' (Nat.one_le_iff_ne_zero.mpr (by omega : m ≠ 0))
        have hpoll : pollJoin tagNames order poll slots =
            some (.item columns, (pollInputs poll none slots).2.map fun slot => (none, slot.2)) := by
          unfold pollJoin
          rw [show pollInputs poll none slots = (none, (pollInputs poll none slots).2) from Prod.ext hr rfl]
          simp only [b1, e1, j1, bind, Option.bind_some, pure]
        simp only [drain, hpoll]
        rw [hn m (by omega)]
      · rw [List.flatMap_cons, List.map_append, j2, hout, e4, List.map_append]
    · obtain ⟨out, ⟨n, hn⟩, hout⟩ := ih (size ys') (by rw [← hsize]; unfold size; rw [h2]; omega) cs htags _ _ es hes h1 (h2.trans hitems) rfl
      refine ⟨out, ⟨n + 1, fun m hm => ?_⟩, hout⟩
      obtain ⟨m, rfl⟩ := Nat.exists_eq_add_of_le' (Nat.one_le_iff_ne_zero.mpr (by omega : m ≠ 0))
      have hpoll : pollJoin tagNames order poll slots = some (.pending, (pollInputs poll none slots).2) := by
        unfold pollJoin
        rw [show pollInputs poll none slots = (some .pending, (pollInputs poll none slots).2) from Prod.ext hr rfl]
      simp only [drain, hpoll]
      exact hn m (by omega)
    · have hcs : cs = [] := by
        have hmem : y.2 ∈ ys.map Prod.snd := List.mem_map_of_mem hy0
        rw [hitems, hnil] at hmem
        obtain ⟨j, hj, he⟩ := List.getElem_of_mem hmem
        rw [List.getElem_zipWith] at he
        simp only [itemsFor, List.append_eq_nil_iff, List.map_eq_nil_iff] at he
        exact he.1
      refine ⟨[], ⟨1, fun m hm => ?_⟩, by simp [hcs]⟩
      obtain ⟨m, rfl⟩ := Nat.exists_eq_add_of_le' (Nat.one_le_iff_ne_zero.mpr (by omega : m ≠ 0))
      have hpoll : pollJoin tagNames order poll slots = some (.done, (pollInputs poll none slots).2) := by
        unfold pollJoin
        rw [show pollInputs poll none slots = (some .done, (pollInputs poll none slots).2) from Prod.ext hr rfl]
      simp only [drain, hpoll]

/-! ### The order of data points -/

section Order
variable {σ : Type} (segment : SegmentOf σ) (lt : List String → List String → Prop)

/-- The data points of sorted segments that do not overlap are sorted. -/
theorem points_sorted {segments : List σ} (hvalid : ∀ s ∈ segments, segment.Valid s) (hdisjoint : segment.Disjoint segments)
    (hsorted : segment.Sorted lt segments) :
    (segments.flatMap segment.points).Pairwise fun p q => Before lt p.tags q.tags p.time q.time := by
  induction segments with
  | nil => simp
  | cons s segments ih =>
    rw [List.flatMap_cons, List.pairwise_append]
    unfold SegmentOf.Disjoint at hdisjoint
    unfold SegmentOf.Sorted at hsorted
    rw [List.pairwise_cons] at hdisjoint hsorted
    refine ⟨?_, ih (fun x hx => hvalid x (List.mem_cons_of_mem _ hx)) hdisjoint.2 hsorted.2, ?_⟩
    · have hv := hvalid s (by simp)
      refine hv.increasing.imp_of_mem fun hp hq h => ?_
      exact .inr ⟨by rw [hv.tags _ hp, hv.tags _ hq], h⟩
    · intro p hp q hq
      obtain ⟨s', hs', hq⟩ := List.mem_flatMap.mp hq
      have hv := hvalid s (by simp)
      have hv' := hvalid s' (List.mem_cons_of_mem _ hs')
      rcases hsorted.1 s' hs' with h | ⟨ht, hst⟩
      · exact .inl (by rw [hv.tags p hp, hv'.tags q hq]; exact h)
      · have h1 := hv.times p hp
        have h2 := hv'.times q hq
        have h3 := hv.order
        have h4 := hv'.order
        refine .inr ⟨by rw [hv.tags p hp, hv'.tags q hq, ht], ?_⟩
        rcases hdisjoint.1 s' hs' with h | h | h
        · exact absurd ht h
        · omega
        · omega

end Order

theorem kept_onPoints (filter : Option (Int → List String → Bool)) (rows : List TableRow) (i : Nat) :
    kept (onPoints filter) (rows.map (TableRow.point i)) = (keptRows filter rows).map (TableRow.point i) := by
  cases filter with
  | none => rfl
  | some f => simp only [kept, onPoints, keptRows, Option.map_some, List.filter_map]; rfl

theorem kept_sublist (p : Option (Point → Bool)) (l : List Point) : (kept p l).Sublist l := by
  cases p with
  | none => exact List.Sublist.refl _
  | some q => exact List.filter_sublist

end ModelarDB.Lemmas
