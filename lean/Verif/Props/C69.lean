import Verif.Lemmas.QueryResult
/-
C69: The result of a query reaches the client complete.
-/
namespace ModelarDB.Props
open Model Model.FlightPut Model.QueryResult Spec Spec.QueryResult Lemmas.QueryResult

theorem rowsAt_some (s : Stream) : rowsAt (some s) = (batchesIn s.items).flatMap rows := rfl

theorem union_rows {own : List Item} {others : List Stream} {items : List Item} (h : Interleaved (own :: others.map (·.items)) items) (schema : List Field) :
    ((batchesIn items).flatMap rows).Perm ((some ⟨schema, own⟩ :: others.map some).flatMap rowsAt) := by
  have h1 : (batchesIn items).Perm ((own :: others.map (·.items)).flatMap batchesIn) := by
    rw [← batchesIn_flatten]
    exact (interleaved_perm h).filterMap _
  have h2 := h1.flatMap_right rows
  refine h2.trans (List.Perm.of_eq ?_)
  rw [List.flatMap_cons, List.flatMap_append, List.flatMap_cons, rowsAt_some]
  congr 1
  rw [List.flatMap_map, List.flatMap_map, List.flatMap_assoc]
  rfl

theorem mem_interleaved {own : List Item} {others : List Stream} {items : List Item} (h : Interleaved (own :: others.map (·.items)) items) (x : Item) :
    x ∈ items ↔ x ∈ own ∨ ∃ s ∈ others, x ∈ s.items := by
  rw [(interleaved_perm h).mem_iff, List.flatten_cons, List.mem_append, List.mem_flatten]
  simp

theorem received_map (t : Transport) {others : List Stream}
    (h : ∀ s ∈ others, receiveItems t s.schema (sendItems t s.items) = s.items) :
    (others.map fun s => (⟨s.schema, receiveItems t s.schema (sendItems t s.items)⟩ : Stream)) = others := by
  have : ∀ s ∈ others, (⟨s.schema, receiveItems t s.schema (sendItems t s.items)⟩ : Stream) = s := by
    intro s hs
    rw [h s hs]
  rw [List.map_congr_left this, List.map_id']

/-- **C69**, partial: if the result has the same schema at all nodes, no node fails, and the batches can be encoded and are small enough for a client, then
the client gets all rows of all nodes and no others, and the batches of each node in their order. -/
theorem C69_complete_partial (t : Transport) (own : Stream) (others : List Stream) (r : Received)
    (hs : ∀ s ∈ others, s.schema = own.schema) (hw : ∀ s ∈ own :: others, Item.error ∉ s.items)
    (ht : ∀ s ∈ own :: others, WellTyped t.utf8 s ∧ Encodable t s ∧ Small t s) (h : Answer t (some own) (others.map some) r) :
    r.schema = some own.schema ∧ IsUnion (some own :: others.map some) r ∧ ∀ s ∈ own :: others, (batchesOf s).Sublist r.batches := by
  generalize hn : others.map some = nodes at h
  cases h with
  | otherFails hnone =>
    rw [← hn] at hnone
    simp at hnone
  | @union _ others' received items h1 h2 =>
    have : others' = others := (List.map_injective_iff.mpr (Option.some_injective _) hn).symm
    subst this
    have h3 : ∀ s ∈ others', receiveItems t s.schema (sendItems t s.items) = s.items := fun s hm => by
      obtain ⟨a, b, c⟩ := ht s (List.mem_cons_of_mem _ hm)
      exact small_received t s.schema s.items b a c (hw s (List.mem_cons_of_mem _ hm))
    have h4 : received = others' := (received_eq t _ _ h1).trans (received_map t h3)
    subst h4
    have hmem := mem_interleaved h2
    have herr : Item.error ∉ items := by
      rw [hmem]
      rintro (h | ⟨s, hm, h⟩)
      · exact hw own List.mem_cons_self h
      · exact hw s (List.mem_cons_of_mem _ hm) h
    have h5 : receiveItems t own.schema (sendItems t items) = items := by
      have hall : ∀ b, Item.batch b ∈ items → t.encodes b = true ∧ (TypedBatch t.utf8 b ∧ b.schema = own.schema) ∧ t.size (encode b) ≤ t.limit := by
        intro b hb
        rcases (hmem _).mp hb with h | ⟨s, hm, h⟩
        · obtain ⟨a, e, c⟩ := ht own List.mem_cons_self
          exact ⟨e b h, a b h, c b h⟩
        · obtain ⟨a, e, c⟩ := ht s (List.mem_cons_of_mem _ hm)
          exact ⟨e b h, ⟨(a b h).1, by rw [(a b h).2, hs s hm]⟩, c b h⟩
      exact small_received t own.schema items (fun b hb => (hall b hb).1) (fun b hb => (hall b hb).2.1) (fun b hb => (hall b hb).2.2) herr
    rw [clientReads_send]
    dsimp only
    rw [h5]
    refine ⟨rfl, ⟨?_, ?_⟩, ?_⟩
    · rw [← Bool.not_eq_true, collect_failed]
      exact herr
    · dsimp only
      rw [collect_batches items herr]
      exact union_rows h2 own.schema
    · intro s hm
      rw [collect_batches items herr]
      refine List.Sublist.filterMap _ (interleaved_sublist h2 s.items ?_)
      rcases List.mem_cons.mp hm with rfl | hm
      · exact List.mem_cons_self
      · exact List.mem_cons_of_mem _ (List.mem_map_of_mem hm)

/-- **C69**, partial: without INCLUDE the client gets exactly the batches of the node. -/
theorem C69_single_partial (t : Transport) (own : Stream) (r : Received) (hw : Item.error ∉ own.items) (ht : WellTyped t.utf8 own)
    (he : Encodable t own) (hsm : Small t own) (h : Answer t (some own) [] r) : r = ⟨some own.schema, batchesOf own, false⟩ := by
  generalize hn : ([] : List (Option Stream)) = nodes at h
  cases h with
  | otherFails hnone => rw [← hn] at hnone; simp at hnone
  | @union _ others received items h1 h2 =>
    cases others with
    | cons _ _ => simp at hn
    | nil =>
      cases received with
      | cons _ _ => simp at h1
      | nil =>
        rw [interleaved_single h2 rfl, clientReads_send]
        dsimp only
        rw [small_received t own.schema own.items he ht hsm hw, collect_batches _ hw]
        congr 1
        rw [← Bool.not_eq_true, collect_failed]
        exact hw

/-- **C69**, partial: if all batches can be encoded, the client gets an error whenever the query fails at any of the nodes, before or while its result is
read, or a batch is too large for a client. -/
theorem C69_error_partial (t : Transport) (own : Option Stream) (others : List (Option Stream)) (r : Received)
    (he : ∀ s, some s ∈ own :: others → WellTyped t.utf8 s ∧ Encodable t s)
    (hf : ∃ n ∈ own :: others, ¬ Works n ∨ ∃ s b, n = some s ∧ Item.batch b ∈ s.items ∧ t.limit < t.size (encode b)) (h : Answer t own others r) :
    r.failed = true := by
  cases h with
  | ownFails => rfl
  | otherFails _ => rfl
  | @union own others received items h1 h2 =>
    have h4 := received_eq t _ _ h1
    subst h4
    rw [clientReads_send]
    dsimp only
    rw [collect_failed]
    have hm := mem_interleaved h2
    have henc : ∀ b, Item.batch b ∈ items → t.encodes b = true := by
      intro b hb
      rcases (hm _).mp hb with h | ⟨s, hs, h⟩
      · exact (he own List.mem_cons_self).2 b h
      · obtain ⟨s', hs', rfl⟩ := List.mem_map.mp hs
        obtain ⟨a, e⟩ := he s' (List.mem_cons_of_mem _ (List.mem_map_of_mem hs'))
        exact e b (received_mem t s'.schema s'.items a b h)
    obtain ⟨n, hn, hcase⟩ := hf
    rcases List.mem_cons.mp hn with rfl | hn
    · rcases hcase with hw | ⟨s, b, hsb, hb, hl⟩
      · exact error_received t own.schema items henc ((hm _).mpr (.inl (not_not.mp hw)))
      · injection hsb with hsb
        subst hsb
        exact large_received t own.schema items henc ⟨b, (hm _).mpr (.inl hb), hl⟩
    · obtain ⟨s, hs, rfl⟩ := List.mem_map.mp hn
      obtain ⟨_, e⟩ := he s (List.mem_cons_of_mem _ hn)
      refine error_received t own.schema items henc ((hm _).mpr (.inr ⟨_, List.mem_map_of_mem hs, ?_⟩))
      rcases hcase with hw | ⟨s', b, hsb, hb, hl⟩
      · exact error_received t s.schema s.items e (not_not.mp hw)
      · injection hsb with hsb
        subst hsb
        exact large_received t s.schema s.items e ⟨b, hb, hl⟩

/-- **C69**, partial: if the result has the same schema at all nodes and its batches can be encoded, the client never gets a wrong or incomplete result
without an error. -/
theorem C69_never_wrong_partial (t : Transport) (own : Option Stream) (others : List (Option Stream)) (r : Received)
    (hs : ∀ s o, own = some o → some s ∈ others → s.schema = o.schema)
    (ht : ∀ s, some s ∈ own :: others → WellTyped t.utf8 s ∧ Encodable t s) (h : Answer t own others r) : NeverWrong (own :: others) r := by
  by_cases hf : r.failed = true
  · exact .inl hf
  have hno : ∀ n ∈ own :: others, Works n ∧ ∀ s b, n = some s → Item.batch b ∈ s.items → t.size (encode b) ≤ t.limit := by
    intro n hn
    refine ⟨?_, ?_⟩
    · by_contra hw
      exact hf (C69_error_partial t own others r ht ⟨n, hn, .inl hw⟩ h)
    · intro s b hsb hb
      by_contra hl
      exact hf (C69_error_partial t own others r ht ⟨n, hn, .inr ⟨s, b, hsb, hb, not_le.mp hl⟩⟩ h)
  refine .inr ⟨fun n hn => (hno n hn).1, ?_⟩
  cases h with
  | ownFails => exact absurd rfl hf
  | otherFails _ => exact absurd rfl hf
  | @union own others received items h1 h2 =>
    have hmem : ∀ s ∈ own :: others, some s ∈ some own :: others.map some := by
      intro s hm
      rcases List.mem_cons.mp hm with rfl | hm
      · exact List.mem_cons_self
      · exact List.mem_cons_of_mem _ (List.mem_map_of_mem hm)
    exact (C69_complete_partial t own others _ (fun s hm => hs s own rfl (List.mem_map_of_mem hm)) (fun s hm => (hno _ (hmem s hm)).1)
      (fun s hm => ⟨(ht s (hmem s hm)).1, (ht s (hmem s hm)).2, fun b hb => (hno _ (hmem s hm)).2 s b rfl hb⟩) (.union h1 h2)).2.1

/-- **C69**, partial: there always is an answer, with the batches of the nodes after each other. -/
theorem C69_answered (t : Transport) (own : Option Stream) (others : List (Option Stream)) : ∃ r, Answer t own others r := by
  cases own with
  | none => exact ⟨_, .ownFails⟩
  | some own =>
    by_cases h : none ∈ others
    · exact ⟨_, .otherFails h⟩
    · have : ∃ ss : List Stream, others = ss.map some := by
        induction others with
        | nil => exact ⟨[], rfl⟩
        | cons o os ih =>
          obtain ⟨ss, rfl⟩ := ih fun hm => h (List.mem_cons_of_mem _ hm)
          cases o with
          | none => exact absurd List.mem_cons_self h
          | some s => exact ⟨s :: ss, rfl⟩
      obtain ⟨ss, rfl⟩ := this
      refine ⟨_, .union (others := ss) (received := ss.map fun s => ⟨s.schema, receiveItems t s.schema (sendItems t s.items)⟩) ?_
        (interleaved_flatten [] _ (by simp))⟩
      rw [List.map_map]
      rfl

/-- **C69**, partial: what Python and C get for batches of one schema is one batch with the same rows in the same order, if there is a batch. -/
theorem C69_embedded_partial (utf8 : List Nat → Bool) (schema : List Field) (r : Received) (hf : r.failed = false) (hne : r.batches ≠ [])
    (ht : ∀ b ∈ r.batches, TypedBatch utf8 b ∧ b.schema = schema) :
    ∃ b, embeddedBatch r = some b ∧ b.schema = schema ∧ rows b = r.batches.flatMap rows := by
  obtain ⟨s, bs, f⟩ := r
  cases bs with
  | nil => exact absurd rfl hne
  | cons first rest =>
    dsimp only at hf hne ht ⊢
    subst hf
    obtain ⟨h1, h2⟩ := ht first List.mem_cons_self
    obtain ⟨b, h3, h4, h5⟩ := concat_rows rest first (kind_of_typed h1) fun x hx => by
      obtain ⟨a, e⟩ := ht x (List.mem_cons_of_mem _ hx)
      exact ⟨kind_of_typed a, by rw [e, h2]⟩
    exact ⟨b, h3, by rw [h4, h2], h5⟩

/-- **C69**, for Python and C: a result that fails, also after some of its batches, is an error and never a batch with some of the rows. -/
theorem C69_embedded_failed (r : Received) (hf : r.failed = true) : embeddedBatch r = none := by
  unfold embeddedBatch
  rw [hf]
  rfl

/-- Also if a batch has been received. -/
example : embeddedBatch ⟨some [], [⟨[], 0, []⟩], true⟩ = none := C69_embedded_failed _ rfl

/-! ### Results that do not reach the client -/

/-- A transport that can encode all batches, with the limit of 4 MiB and messages that have only the buffers. -/
def plain : Transport := ⟨ascii, fun _ => true, fun m => (m.buffers.map List.length).sum, 4194304⟩

def parkField : Field := ⟨"park", .text⟩
def speedField : Field := ⟨"speed", floatType⟩
def powerField : Field := ⟨"power", floatType⟩
/-- A result with a batch of one row. -/
def oneRowResult (schema : List Field) (columns : List Column) : Stream := ⟨schema, [.batch ⟨schema, 1, columns⟩]⟩
def atCloud : Stream := oneRowResult [parkField, speedField, powerField] [.text [[65]], .fixed [0x41200000], .fixed [0]]
def atEdge : Stream := oneRowResult [parkField, speedField, powerField] [.text [[66]], .fixed [0x41300000], .fixed [7]]
/-- The table was created with the columns in another order at this node. -/
def atOther : Stream := oneRowResult [parkField, powerField, speedField] [.text [[66]], .fixed [7], .fixed [0x41300000]]

/-- The hypotheses hold for two nodes with a row each. -/
example : WellTyped plain.utf8 atCloud ∧ WellTyped plain.utf8 atEdge ∧ Small plain atCloud ∧ Small plain atEdge ∧ atEdge.schema = atCloud.schema ∧
    Item.error ∉ atCloud.items ∧ ∃ r, Answer plain (some atCloud) [some atEdge] r := by
  have h1 : ∀ s ∈ [atCloud, atEdge], WellTyped plain.utf8 s ∧ Small plain s := by
    intro s hs
    simp only [List.mem_cons, List.not_mem_nil, or_false] at hs
    rcases hs with rfl | rfl <;>
    · refine ⟨?_, ?_⟩
      · intro b hb
        simp only [atCloud, atEdge, oneRowResult, List.mem_cons, List.not_mem_nil, or_false, Item.batch.injEq] at hb
        subst hb
        exact ⟨.cons (by decide) (.cons (by decide) (.cons (by decide) .nil)), rfl⟩
      · intro b hb
        simp only [atCloud, atEdge, oneRowResult, List.mem_cons, List.not_mem_nil, or_false, Item.batch.injEq] at hb
        subst hb
        decide
  exact ⟨(h1 atCloud (by simp)).1, (h1 atEdge (by simp)).1, (h1 atCloud (by simp)).2, (h1 atEdge (by simp)).2, rfl, by decide, C69_answered _ _ _⟩

theorem answer_two {t : Transport} {own other : Stream} {items : List Item} {r : Received}
    (h : Interleaved [own.items, receiveItems t other.schema (sendItems t other.items)] items)
    (hr : r = clientReads t (sendQueryResult t ⟨own.schema, items⟩)) : Answer t (some own) [some other] r := by
  subst hr
  exact .union (others := [other]) (received := [⟨other.schema, receiveItems t other.schema (sendItems t other.items)⟩]) rfl h

/-- C69 is false: if the columns are in another order at another node, its values are given to the client in the wrong columns without an error. -/
theorem C69_other_schema : ∃ r, Answer plain (some atCloud) [some atOther] r ∧ r.failed = false ∧
    (∃ b, r.batches[1]? = some b ∧ valueOf b 0 "speed" = some (floatType, .inl 7)) ∧
    (∃ b, batchesOf atOther = [b] ∧ valueOf b 0 "speed" = some (floatType, .inl 0x41300000)) ∧ ¬ NeverWrong [some atCloud, some atOther] r := by
  refine ⟨_, answer_two (interleaved_flatten [] _ (by simp)) rfl, by decide, ⟨_, rfl, by decide⟩, ⟨_, rfl, by decide⟩, ?_⟩
  rintro (h | ⟨_, _, h⟩)
  · exact absurd h (by decide)
  · have hm := h.mem_iff (a := valueOf ⟨[parkField, powerField, speedField], 1, [.text [[66]], .fixed [7], .fixed [0x41300000]]⟩ 0)
    have := hm.mpr (by
      simp only [List.flatMap_cons, List.flatMap_nil, List.append_nil, List.mem_append]
      exact .inr (List.mem_singleton.mpr rfl))
    rw [show (clientReads plain (sendQueryResult plain ⟨atCloud.schema,
      ([atCloud.items, receiveItems plain atOther.schema (sendItems plain atOther.items)] : List (List Item)).flatten⟩)).batches =
      [⟨atCloud.schema, 1, [.text [[65]], .fixed [0x41200000], .fixed [0]]⟩, ⟨atCloud.schema, 1, [.text [[66]], .fixed [7], .fixed [0x41300000]]⟩]
      from by decide] at this
    simp only [List.flatMap_cons, List.flatMap_nil, List.append_nil, List.mem_append] at this
    rcases this with h | h
    · exact absurd (congrFun (List.mem_singleton.mp h) "speed") (by decide)
    · exact absurd (congrFun (List.mem_singleton.mp h) "speed") (by decide)

/-- C69 is false: a batch that cannot be encoded ends the result without an error. -/
theorem C69_truncated (b : Batch) (schema : List Field) (before after : List Batch) (t : Transport) (hb : t.encodes b = false)
    (ha : ∀ c ∈ before, t.encodes c = true ∧ TypedBatch t.utf8 c ∧ c.schema = schema ∧ t.size (encode c) ≤ t.limit) :
    Answer t (some ⟨schema, (before ++ b :: after).map .batch⟩) [] ⟨some schema, before, false⟩ := by
  have key : ∀ (before : List Batch), (∀ c ∈ before, t.encodes c = true ∧ TypedBatch t.utf8 c ∧ c.schema = schema ∧ t.size (encode c) ≤ t.limit) →
      collect (receiveItems t schema (sendItems t ((before ++ b :: after).map .batch))) = (before, false) := by
    intro before
    induction before with
    | nil =>
      intro _
      rw [List.nil_append, List.map_cons, sendItems, hb]
      rfl
    | cons c before ih =>
      intro h
      obtain ⟨h1, h2, h3, h4⟩ := h c List.mem_cons_self
      rw [List.cons_append, List.map_cons, sendItems, if_pos h1, receiveItems, if_pos h4, put_decode_encode t.utf8 (table := schema) h2 (by rw [h3])]
      dsimp only
      rw [collect, ih fun x hx => h x (List.mem_cons_of_mem _ hx), ← h3]
  have h := Answer.union (t := t) (own := ⟨schema, (before ++ b :: after).map .batch⟩) (others := []) (received := []) rfl (interleaved_self _)
  rw [clientReads_send] at h
  dsimp only at h
  rw [key before ha] at h
  exact h

/-- A result with a timestamp and `k` values in each of `n` rows. -/
def wide (k n : Nat) : Batch :=
  ⟨⟨"timestamp", timestampType⟩ :: List.replicate k ⟨"value", floatType⟩, n, .fixed (List.replicate n 0) :: List.replicate k (.fixed (List.replicate n 0))⟩

theorem flatMap_toLe_length (w : Nat) : ∀ (values : List Nat), (values.flatMap (toLe w)).length = w * values.length
  | [] => rfl
  | v :: values => by
    rw [List.flatMap_cons, List.length_append, toLe_length, flatMap_toLe_length w values, List.length_cons]
    ring

theorem wide_bytes (k n : Nat) : 8 * n + k * (4 * n) ≤ ((encode (wide k n)).buffers.map List.length).sum := by
  have hk : ∀ k, k * (4 * n) ≤ ((((List.replicate k (⟨"value", floatType⟩ : Field)).zip (List.replicate k (.fixed (List.replicate n 0)))).flatMap
      fun x => encodeColumn x.1.type x.2).map List.length).sum := by
    intro k
    induction k with
    | zero => exact Nat.le_refl _ |>.trans (by simp)
    | succ k ih =>
      rw [List.replicate_succ, List.replicate_succ, List.zip_cons_cons, List.flatMap_cons, List.map_append, List.sum_append]
      have : 4 * n ≤ ((encodeColumn floatType (.fixed (List.replicate n 0))).map List.length).sum := by
        show 4 * n ≤ (validity _).length + (((List.replicate n 0).flatMap (toLe 4)).length + 0)
        rw [flatMap_toLe_length, List.length_replicate]
        omega
      dsimp only
      rw [Nat.succ_mul]
      omega
  have h1 : 8 * n ≤ ((encodeColumn timestampType (.fixed (List.replicate n 0))).map List.length).sum := by
    show 8 * n ≤ (validity _).length + (((List.replicate n 0).flatMap (toLe 8)).length + 0)
    rw [flatMap_toLe_length, List.length_replicate]
    omega
  show _ ≤ (((encodeColumn timestampType (.fixed (List.replicate n 0))) ++ _).map List.length).sum
  rw [List.map_append, List.sum_append]
  exact Nat.add_le_add h1 (hk k)

theorem wide_typed (utf8 : List Nat → Bool) (k n : Nat) : TypedBatch utf8 (wide k n) := by
  refine .cons ⟨by simp [wide], fun v hv => ?_⟩ ?_
  · rw [(List.mem_replicate.mp hv).2]
    exact Nat.pow_pos (by decide)
  · show List.Forall₂ _ (List.replicate k _) (List.replicate k _)
    induction k with
    | zero => exact .nil
    | succ k ih =>
      refine .cons ⟨by simp [wide], fun v hv => ?_⟩ ih
      rw [(List.mem_replicate.mp hv).2]
      exact Nat.pow_pos (by decide)

/-- C69 is false: results are sent in the batches the query computes them in, usually 8,192 rows, and a client accepts no message above 4 MiB, so a
query for a timestamp and at least 127 values of four bytes fails at the client though all nodes work. -/
theorem C69_too_large (t : Transport) (hl : t.limit = 4194304) (hsize : ∀ m, (m.buffers.map List.length).sum ≤ t.size m)
    (he : ∀ b, t.encodes b = true) (k n : Nat) (hk : 127 ≤ k) (hn : 8192 ≤ n) (others : List (Option Stream)) (r : Received)
    (ho : ∀ s, some s ∈ others → WellTyped t.utf8 s)
    (h : Answer t (some ⟨(wide k n).schema, [.batch (wide k n)]⟩) others r) : r.failed = true ∧ ¬ IsUnion (some ⟨(wide k n).schema, [.batch (wide k n)]⟩ :: others) r := by
  have hf : r.failed = true := by
    refine C69_error_partial t _ others r ?_ ⟨_, List.mem_cons_self, .inr ⟨_, wide k n, rfl, List.mem_cons_self, ?_⟩⟩ h
    · intro s hs
      refine ⟨?_, fun b _ => he b⟩
      rcases List.mem_cons.mp hs with hs | hs
      · injection hs with hs
        subst hs
        intro b hb
        simp only [List.mem_cons, List.not_mem_nil, or_false, Item.batch.injEq] at hb
        subst hb
        exact ⟨wide_typed _ _ _, rfl⟩
      · exact ho s hs
    · have h1 := wide_bytes k n
      have h2 := hsize (encode (wide k n))
      have h3 : 127 * (4 * 8192) ≤ k * (4 * n) := Nat.mul_le_mul hk (by omega)
      omega
  exact ⟨hf, fun hu => absurd (hu.1.symm.trans hf) (by decide)⟩

example : plain.limit = 4194304 ∧ ∀ m, (m.buffers.map List.length).sum ≤ plain.size m := ⟨rfl, fun _ => Nat.le_refl _⟩

/-- C69 is false for Python and C: if a query has no batches the result has no columns, although the node has sent the schema. -/
theorem C69_empty (t : Transport) (schema : List Field) (r : Received) (h : Answer t (some ⟨schema, []⟩) [] r) :
    r.schema = some schema ∧ embeddedBatch r = some ⟨[], 0, []⟩ := by
  have := C69_single_partial t ⟨schema, []⟩ r (by simp) (fun b hb => by simp at hb) (fun b hb => by simp at hb) (fun b hb => by simp at hb) h
  subst this
  exact ⟨rfl, rfl⟩

/-- An address that is given twice gives its rows twice. -/
theorem C69_twice (t : Transport) (own other : Stream) (r : Received)
    (hs : other.schema = own.schema) (hw : Item.error ∉ own.items ∧ Item.error ∉ other.items)
    (ht : (WellTyped t.utf8 own ∧ Encodable t own ∧ Small t own) ∧ WellTyped t.utf8 other ∧ Encodable t other ∧ Small t other)
    (h : Answer t (some own) [some other, some other] r) :
    (r.batches.flatMap rows).Perm (rowsAt (some own) ++ (rowsAt (some other) ++ rowsAt (some other))) := by
  have := (C69_complete_partial t own [other, other] r (by simpa using hs) (by simpa using hw) (by simpa using ht) h).2.1.2
  simpa using this

end ModelarDB.Props
