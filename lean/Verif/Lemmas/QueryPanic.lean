import Verif.Lemmas.QueryStream
import Verif.Lemmas.QueryPlan
/-
Lemmas for the absence of panics when a query is executed.
-/
namespace ModelarDB.Lemmas
open Model.Query Model.TableDefinition Spec

/-- All data points have `n` tags. -/
def Tagged (n : Nat) (points : List Point) : Prop := ∀ p ∈ points, p.tags.length = n

/-- A property of the states of a stream that is kept when it is polled, and for which all items satisfy `Q`. -/
def Keeping {S α : Type} (poll : Poller S α) (Inv : S → Prop) (Q : α → Prop) : Prop :=
  ∀ s, Inv s → Inv (poll s).2 ∧ ∀ a, (poll s).1 = .item a → Q a

theorem keeping_events {α : Type} (Q : α → Prop) : Keeping pollEvents (fun es : List (Event α) => ∀ a, .item a ∈ es → Q a) Q := by
  intro es h
  match es with
  | [] => exact ⟨h, by intro a ha; cases ha⟩
  | .pending :: es => exact ⟨fun a ha => h a (List.mem_cons_of_mem _ ha), by intro a ha; cases ha⟩
  | .item a :: es => exact ⟨fun a ha => h a (List.mem_cons_of_mem _ ha), by rintro a ⟨⟩; exact h a (by simp)⟩
  | .error :: es => exact ⟨fun a ha => h a (List.mem_cons_of_mem _ ha), by intro a ha; cases ha⟩

theorem emitNext_keeps {S : Type} (k n : Nat) (stream : GridStream S) (h : Tagged n stream.current) :
    (emitNext k stream).2.input = stream.input ∧ Tagged n (emitNext k stream).2.current ∧
      ∀ a, (emitNext k stream).1 = .item a → Tagged n a := by
  refine ⟨rfl, h, ?_⟩
  rintro a ⟨⟩ p hp
  exact h p (List.mem_of_mem_drop (List.mem_of_mem_take hp))

theorem keeping_grid {σ S : Type} (points : σ → List Point) (predicate : Option (Point → Bool)) (k n : Nat) (poll : Poller S (List σ))
    (Inv : S → Prop) (h : Keeping poll Inv fun batch => ∀ s ∈ batch, Tagged n (points s)) :
    Keeping (pollGrid points predicate k poll) (fun g => Inv g.input ∧ Tagged n g.current) (Tagged n) := by
  rintro stream ⟨h1, h2⟩
  obtain ⟨h3, h4⟩ := h stream.input h1
  have hemit : ∀ g : GridStream S, Inv g.input → Tagged n g.current →
      (Inv (emitNext k g).2.input ∧ Tagged n (emitNext k g).2.current) ∧ ∀ a, (emitNext k g).1 = .item a → Tagged n a := by
    intro g hg1 hg2
    obtain ⟨e1, e2, e3⟩ := emitNext_keeps k n g hg2
    exact ⟨⟨by rw [e1]; exact hg1, e2⟩, e3⟩
  unfold pollGrid
  split
  · rcases hp : poll stream.input with ⟨r, input⟩
    rw [hp] at h3 h4
    cases r with
    | item batch =>
      refine hemit _ h3 ?_
      have hall : Tagged n (stream.current.drop stream.offset ++ batch.flatMap points) := by
        intro p hp
        rcases List.mem_append.mp hp with hp | hp
        · exact h2 p (List.mem_of_mem_drop hp)
        · obtain ⟨s, hs, hp⟩ := List.mem_flatMap.mp hp
          exact h4 batch rfl s hs p hp
      intro p hp
      simp only [gridAndAppend] at hp
      split at hp
      · exact hall p (List.mem_filter.mp hp).1
      · exact hall p hp
    | done =>
      dsimp only
      split
      · exact hemit _ h3 h2
      · exact ⟨⟨h3, h2⟩, by intro a ha; cases ha⟩
    | pending => exact ⟨⟨h3, h2⟩, by intro a ha; cases ha⟩
    | error => exact ⟨⟨h3, h2⟩, by intro a ha; cases ha⟩
  · exact hemit stream h1 h2

/-- The inputs of the join: all batches have the tags. -/
def SlotsOk {S : Type} (Inv : S → Prop) (n : Nat) (slots : List (Option (List Point) × S)) : Prop :=
  ∀ slot ∈ slots, (∀ b, slot.1 = some b → Tagged n b) ∧ Inv slot.2

theorem pollInputs_keeps {S : Type} {poll : Poller S (List Point)} {Inv : S → Prop} {n : Nat} (h : Keeping poll Inv (Tagged n)) :
    ∀ (slots : List (Option (List Point) × S)) (reason : Option (Poll (List Point))), SlotsOk Inv n slots → (∀ b, reason ≠ some (.item b)) →
    SlotsOk Inv n (pollInputs poll reason slots).2 ∧ (pollInputs poll reason slots).2.length = slots.length ∧
      (∀ b, (pollInputs poll reason slots).1 ≠ some (.item b)) ∧
      ((pollInputs poll reason slots).1 = none → reason = none ∧ ∀ slot ∈ (pollInputs poll reason slots).2, slot.1.isSome)
  | [], reason, _, hr => by simp [pollInputs, SlotsOk, hr]
  | (some b, s) :: slots, reason, hs, hr => by
    obtain ⟨h1, h2, h3, h4⟩ := pollInputs_keeps h slots reason (fun x hx => hs x (List.mem_cons_of_mem _ hx)) hr
    simp only [pollInputs]
    refine ⟨?_, by simp [h2], h3, fun hn => ⟨(h4 hn).1, ?_⟩⟩
    · intro x hx
      rcases List.mem_cons.mp hx with rfl | hx
      · exact hs _ (by simp)
      · exact h1 x hx
    · intro x hx
      rcases List.mem_cons.mp hx with rfl | hx
      · rfl
      · exact (h4 hn).2 x hx
  | (none, s) :: slots, reason, hs, hr => by
    obtain ⟨k1, k2⟩ := h s (hs (none, s) (by simp)).2
    have hother : ∀ other s', (∀ b, other ≠ .item b) → Inv s' →
        SlotsOk Inv n ((none, s') :: (pollInputs poll (some other) slots).2) ∧
        ((none, s') :: (pollInputs poll (some other) slots).2).length = slots.length + 1 ∧
        (∀ b, (pollInputs poll (some other) slots).1 ≠ some (.item b)) ∧
        ((pollInputs poll (some other) slots).1 = none → reason = none ∧
          ∀ slot ∈ (none, s') :: (pollInputs poll (some other) slots).2, slot.1.isSome) := by
      intro other s' ho hi
      obtain ⟨h1, h2, h3, h4⟩ := pollInputs_keeps h slots (some other) (fun x hx => hs x (List.mem_cons_of_mem _ hx))
        (by intro b hb; cases hb; exact ho b rfl)
      refine ⟨?_, by simp [h2], h3, fun hn => absurd (h4 hn).1 (by simp)⟩
      intro x hx
      rcases List.mem_cons.mp hx with rfl | hx
      · exact ⟨by simp, hi⟩
      · exact h1 x hx
    rcases hp : poll s with ⟨r, s'⟩
    rw [hp] at k1 k2
    cases r with
    | item b =>
      obtain ⟨h1, h2, h3, h4⟩ := pollInputs_keeps h slots reason (fun x hx => hs x (List.mem_cons_of_mem _ hx)) hr
      simp only [pollInputs, hp]
      refine ⟨?_, by simp [h2], h3, fun hn => ⟨(h4 hn).1, ?_⟩⟩
      · intro x hx
        rcases List.mem_cons.mp hx with rfl | hx
        · exact ⟨by rintro b' ⟨⟩; exact k2 b rfl, k1⟩
        · exact h1 x hx
      · intro x hx
        rcases List.mem_cons.mp hx with rfl | hx
        · rfl
        · exact (h4 hn).2 x hx
    | pending => simpa only [pollInputs, hp, List.length_cons] using hother .pending s' (by simp) k1
    | error => simpa only [pollInputs, hp, List.length_cons] using hother .error s' (by simp) k1
    | done => simpa only [pollInputs, hp, List.length_cons] using hother .done s' (by simp) k1

theorem allBatches_some {S : Type} {n : Nat} {Inv : S → Prop} : ∀ {slots : List (Option (List Point) × S)}, (∀ slot ∈ slots, slot.1.isSome) →
    SlotsOk Inv n slots → ∃ bs, allBatches slots = some bs ∧ bs.length = slots.length ∧ ∀ b ∈ bs, Tagged n b
  | [], _, _ => ⟨[], rfl, rfl, by simp⟩
  | (some b, s) :: slots, h, hs => by
    obtain ⟨bs, h1, h2, h3⟩ := allBatches_some (fun x hx => h x (List.mem_cons_of_mem _ hx)) (fun x hx => hs x (List.mem_cons_of_mem _ hx))
    refine ⟨b :: bs, by simp [allBatches, h1], by simp [h2], ?_⟩
    intro c hc
    rcases List.mem_cons.mp hc with rfl | hc
    · exact (hs (some c, s) (by simp)).1 c rfl
    · exact h3 c hc
  | (none, s) :: slots, h, _ => by have := h (none, s) (by simp); simp at this

theorem joinColumns_some {tagNames : List String} {first : List Point} (hfirst : Tagged tagNames.length first) :
    ∀ (order : List JoinColumn) (batches : List (List Point)), (∀ name, .tag name ∈ order → name ∈ tagNames ∧ FreeName name) →
    order.count .field ≤ batches.length → ∃ columns, joinColumns tagNames first order batches = some columns
  | [], _, _, _ => ⟨[], rfl⟩
  | .timestamp :: order, batches, h1, h2 => by
    obtain ⟨c, hc⟩ := joinColumns_some hfirst order batches (fun n hn => h1 n (List.mem_cons_of_mem _ hn)) (by simpa using h2)
    simp [joinColumns, hc]
  | .field :: order, [], h1, h2 => by simp at h2
  | .field :: order, b :: batches, h1, h2 => by
    obtain ⟨c, hc⟩ := joinColumns_some hfirst order batches (fun n hn => h1 n (List.mem_cons_of_mem _ hn)) (by simpa using h2)
    simp [joinColumns, hc]
  | .tag name :: order, batches, h1, h2 => by
    obtain ⟨c, hc⟩ := joinColumns_some hfirst order batches (fun n hn => h1 n (List.mem_cons_of_mem _ hn)) (by simpa using h2)
    obtain ⟨hmem, hfree⟩ := h1 name (by simp)
    obtain ⟨i, hi⟩ : ∃ i, tagNames.findIdx? (· == name) = some i := by
      rw [← Option.isSome_iff_exists, List.findIdx?_isSome, List.any_eq_true]
      exact ⟨name, hmem, by simp⟩
    have hlt : i < tagNames.length := by
      rw [List.findIdx?_eq_some_iff_getElem] at hi
      exact hi.1
    have htag : tagColumn tagNames name first = some (first.map fun p => .tag ((p.tags[i]?).getD "")) := by
      rw [tagColumn_free hfree hi]
      refine mapM_some fun p hp => ?_
      have hl := hfirst p hp
      rw [List.getElem?_eq_getElem (by omega)]
      rfl
    simp [joinColumns, hc, htag]

theorem tagged_take {n k : Nat} {b : List Point} (h : Tagged n b) : Tagged n (b.take k) := fun p hp => h p (List.mem_of_mem_take hp)

theorem pollJoin_some {S : Type} {poll : Poller S (List Point)} {Inv : S → Prop} {tagNames : List String} {order : List JoinColumn}
    {fields : List Nat} (ha : Answerable tagNames order fields) (h : Keeping poll Inv (Tagged tagNames.length))
    {slots : List (Option (List Point) × S)} (hlen : slots.length = fields.length) (hs : SlotsOk Inv tagNames.length slots) :
    ∃ r slots', pollJoin tagNames order poll slots = some (r, slots') ∧ slots'.length = fields.length ∧ SlotsOk Inv tagNames.length slots' := by
  obtain ⟨h1, h2, h3, h4⟩ := pollInputs_keeps h slots none hs (by simp)
  unfold pollJoin
  rcases hp : pollInputs poll none slots with ⟨reason, slots'⟩
  rw [hp] at h1 h2 h3 h4
  simp only at h1 h2 h3 h4
  cases reason with
  | some r =>
    cases r with
    | item b => exact absurd rfl (h3 b)
    | pending => exact ⟨_, _, rfl, by omega, h1⟩
    | error => exact ⟨_, _, rfl, by omega, h1⟩
    | done => exact ⟨_, _, rfl, by omega, h1⟩
  | none =>
    obtain ⟨bs, b1, b2, b3⟩ := allBatches_some (h4 rfl).2 h1
    have hcols : ∃ columns, sortedJoin tagNames order (sliceToSmallest bs) = some columns := by
      have hne : bs ≠ [] := by
        rintro rfl
        simp only [List.length_nil] at b2
        exact ha.inputs (List.eq_nil_of_length_eq_zero (by omega))
      obtain ⟨b, bs', rfl⟩ := List.exists_cons_of_ne_nil hne
      have hslice : sliceToSmallest (b :: bs') = b.take (smallest (b :: bs')) :: bs'.map fun c => c.take (smallest (b :: bs')) := rfl
      rw [hslice, sortedJoin, if_neg (by simpa [List.isEmpty_iff] using ha.columns)]
      refine joinColumns_some (tagged_take (b3 b (by simp))) order _ ha.tags ?_
      have := ha.values
      simp only [List.length_cons, List.length_map] at b2 ⊢
      omega
    obtain ⟨columns, hcols⟩ := hcols
    refine ⟨.item columns, slots'.map fun slot => (none, slot.2), by simp [b1, hcols], by simp; omega, ?_⟩
    intro x hx
    obtain ⟨y, hy, rfl⟩ := List.mem_map.mp hx
    exact ⟨by simp, (h1 y hy).2⟩

theorem drain_not_panicked {S α : Type} {poll : S → Option (Poll α × S)} {Inv : S → Prop}
    (h : ∀ s, Inv s → ∃ r s', poll s = some (r, s') ∧ Inv s') : ∀ (n : Nat) (s : S), Inv s → (drain poll n s).2 ≠ .panicked
  | 0, s, _ => by simp [drain]
  | n + 1, s, hs => by
    obtain ⟨r, s', hp, hs'⟩ := h s hs
    have ih := drain_not_panicked h n s' hs'
    unfold drain
    rw [hp]
    cases r with
    | pending => exact ih
    | item a => exact ih
    | error => simp
    | done => simp

/-! ### The number of columns -/

theorem joinColumns_length {tagNames : List String} {first : List Point} : ∀ {order : List JoinColumn} {batches : List (List Point)}
    {columns : List (List Cell)}, joinColumns tagNames first order batches = some columns → columns.length = order.length
  | [], _, _, h => by cases h; rfl
  | .timestamp :: order, batches, columns, h => by
    simp only [joinColumns, Option.map_eq_some_iff] at h
    obtain ⟨c, h, rfl⟩ := h
    simp [joinColumns_length h]
  | .field :: order, [], columns, h => by simp [joinColumns] at h
  | .field :: order, b :: batches, columns, h => by
    simp only [joinColumns, Option.map_eq_some_iff] at h
    obtain ⟨c, h, rfl⟩ := h
    simp [joinColumns_length h]
  | .tag name :: order, batches, columns, h => by
    simp only [joinColumns, Option.bind_eq_some_iff, Option.map_eq_some_iff] at h
    obtain ⟨_, _, c, h, rfl⟩ := h
    simp [joinColumns_length h]

theorem pollJoin_length {S : Type} {tagNames : List String} {order : List JoinColumn} {poll : Poller S (List Point)}
    {slots slots' : List (Option (List Point) × S)} {columns : List (List Cell)}
    (h : pollJoin tagNames order poll slots = some (.item columns, slots')) : columns.length = order.length := by
  unfold pollJoin at h
  split at h
  any_goals cases h
  simp only [Option.bind_eq_bind, Option.bind_eq_some_iff] at h
  obtain ⟨bs, _, cs, hcs, h⟩ := h
  cases h
  unfold sortedJoin at hcs
  split at hcs
  · cases hcs
  · split at hcs
    · cases hcs
    · exact joinColumns_length hcs

theorem drain_items {S α : Type} {poll : S → Option (Poll α × S)} {Q : α → Prop} (h : ∀ s a s', poll s = some (.item a, s') → Q a) :
    ∀ (n : Nat) (s : S), ∀ a ∈ (drain poll n s).1, Q a
  | 0, s => by simp [drain]
  | n + 1, s => by
    intro a ha
    unfold drain at ha
    split at ha
    · simp at ha
    · exact drain_items h n _ a ha
    · rename_i b s' hp
      rcases List.mem_cons.mp ha with rfl | ha
      · exact h _ _ _ hp
      · exact drain_items h n _ a ha
    · simp at ha
    · simp at ha

/-! ### Generated columns -/

theorem addStored_some {κ : Type} {batch : List κ} {generated : Nat} {columns : List κ} {stop : Nat}
    (h : stop ≤ batch.length + generated) (hg : generated ≤ columns.length) :
    ∃ r, addStored batch generated columns stop = some r ∧ stop ≤ r.length ∧ generated ≤ r.length := by
  unfold addStored
  split
  · rw [List.getElem?_eq_getElem (by omega)]
    exact addStored_some h (by simp; omega)
  · exact ⟨columns, rfl, by omega, hg⟩
termination_by stop - columns.length
decreasing_by simp only [List.length_append, List.length_singleton]; omega

theorem generateColumns_no_panic {ε κ : Type} {evaluate : ε → List κ → Option κ} {batch : List κ} : ∀ {generate : List (Nat × ε)} {generated : Nat}
    {columns : List κ}, generated ≤ columns.length →
    (∀ (k i : Nat) (e : ε), generate[k]? = some (i, e) → i ≤ batch.length + generated + k) →
    generateColumns evaluate batch generate generated columns ≠ .error .panic ∧
      ∀ n c, generateColumns evaluate batch generate generated columns = .ok (n, c) → n = generated + generate.length ∧ n ≤ c.length
  | [], generated, columns, hg, _ => by
    simp only [generateColumns, ne_eq, reduceCtorEq, not_false_eq_true, true_and]
    rintro n c ⟨⟩
    exact ⟨rfl, hg⟩
  | (i, e) :: generate, generated, columns, hg, h => by
    obtain ⟨r, hr, _, hg'⟩ := addStored_some (columns := columns) (h 0 i e rfl) hg
    simp only [generateColumns, hr]
    split
    · simp
    · rename_i c _
      obtain ⟨h1, h2⟩ := generateColumns_no_panic (evaluate := evaluate) (batch := batch) (generate := generate) (generated := generated + 1) (columns := r ++ [c])
        (by simpa using hg') fun k i e hk => by have := h (k + 1) i e (by rw [List.getElem?_cons_succ]; exact hk); omega
      refine ⟨h1, fun n c hn => ?_⟩
      have := h2 n c hn
      simp only [List.length_cons]
      omega

theorem generateAs_no_panic {ε κ : Type} {evaluate : ε → List κ → Option κ} {generate : List (Nat × ε)} {length : Nat} {batch : List κ}
    (h : ∀ (k i : Nat) (e : ε), generate[k]? = some (i, e) → i ≤ batch.length + k) (hlen : length ≤ batch.length + generate.length) :
    generateAs evaluate generate length batch ≠ .error .panic := by
  obtain ⟨h1, h2⟩ := generateColumns_no_panic (evaluate := evaluate) (batch := batch) (generate := generate) (generated := 0) (columns := [])
    (by simp) (by simpa using h)
  unfold generateAs
  split
  · rename_i e he
    rw [he] at h1
    rintro ⟨⟩
    exact h1 rfl
  · rename_i n c hn
    obtain ⟨hng, hnc⟩ := h2 n c hn
    obtain ⟨r, hr, hrl, _⟩ := addStored_some (batch := batch) (generated := n) (columns := c) (stop := length) (by omega) hnc
    rw [hr]
    simp only
    rw [if_pos (by rw [List.length_take]; omega)]
    simp

/-- The positions of the columns to generate. -/
theorem genList_position {ε : Type} (m : Metadata ε) : ∀ (P : List Nat) (start k i : Nat) (e : ε), (genList m start P)[k]? = some (i, e) →
    i ≤ start + (storedOf m P).length + k
  | [], start, k, i, e, h => by simp [genList] at h
  | p :: P, start, k, i, e, h => by
    by_cases hg : isGen m p = true
    · obtain ⟨g, hg'⟩ := (isGen_iff m).mp hg
      rw [genList, hg'] at h
      have hst : storedOf m (p :: P) = storedOf m P := by rw [storedOf, List.filter_cons_of_neg (by simp [hg])]; rfl
      rw [hst]
      cases k with
      | zero => simp at h; omega
      | succ k =>
        have := genList_position m P (start + 1) k i e (by simpa using h)
        omega
    · have hg : isGen m p = false := by simpa using hg
      rw [genList_stored m hg] at h
      have hst : storedOf m (p :: P) = p :: storedOf m P := by rw [storedOf, List.filter_cons_of_pos (by simp [hg])]; rfl
      have := genList_position m P (start + 1) k i e h
      rw [hst, List.length_cons]
      omega

theorem genList_length {ε : Type} (m : Metadata ε) : ∀ (P : List Nat) (start : Nat), (genList m start P).length + (storedOf m P).length = P.length
  | [], start => rfl
  | p :: P, start => by
    have ih := genList_length m P (start + 1)
    by_cases hg : isGen m p = true
    · obtain ⟨g, hg'⟩ := (isGen_iff m).mp hg
      have hst : storedOf m (p :: P) = storedOf m P := by rw [storedOf, List.filter_cons_of_neg (by simp [hg])]; rfl
      rw [genList, hg', hst]
      simp only [List.length_cons]
      omega
    · have hg : isGen m p = false := by simpa using hg
      have hst : storedOf m (p :: P) = p :: storedOf m P := by rw [storedOf, List.filter_cons_of_pos (by simp [hg])]; rfl
      rw [genList_stored m hg, hst, List.length_cons, List.length_cons]
      omega

end ModelarDB.Lemmas
