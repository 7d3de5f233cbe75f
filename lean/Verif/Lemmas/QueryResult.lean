import Verif.Spec.QueryResult
import Verif.Props.C64
import Mathlib.Data.List.Perm.Subperm
import Mathlib.Data.List.Flatten
/-
Lemmas about how the result of a query gets to the client, for C69.
-/
namespace ModelarDB.Lemmas.QueryResult
open Model Model.FlightPut Model.QueryResult Spec Spec.QueryResult

theorem interleaved_perm {α : Type} {streams : List (List α)} {out : List α} (h : Interleaved streams out) : out.Perm streams.flatten := by
  induction h with
  | done hs => rw [List.flatten_eq_nil_iff.mpr hs]
  | next _ ih =>
    refine (List.Perm.cons _ ih).trans ?_
    rw [List.flatten_append, List.flatten_append, List.flatten_cons, List.flatten_cons, List.cons_append]
    exact List.perm_middle.symm

theorem interleaved_sublist {α : Type} {streams : List (List α)} {out : List α} (h : Interleaved streams out) : ∀ s ∈ streams, s.Sublist out := by
  induction h with
  | done hs => exact fun s hm => by rw [hs s hm]
  | next _ ih =>
    intro s hs
    rcases List.mem_append.mp hs with hs | hs
    · exact (ih s (List.mem_append_left _ hs)).trans (List.sublist_cons_self _ _)
    · rcases List.mem_cons.mp hs with rfl | hs
      · exact (ih _ (List.mem_append_right _ List.mem_cons_self)).cons_cons _
      · exact (ih s (List.mem_append_right _ (List.mem_cons_of_mem _ hs))).trans (List.sublist_cons_self _ _)

theorem interleaved_single {α : Type} {streams : List (List α)} {out s : List α} (h : Interleaved streams out) (hs : streams = [s]) : out = s := by
  induction h generalizing s with
  | done hd => rw [hs] at hd; exact (hd s (by simp)).symm
  | @next before after rest out x _ ih =>
    cases before with
    | nil =>
      rw [List.nil_append] at hs ih
      injection hs with h1 h2
      rw [ih (s := rest) (by rw [h2]), h1]
    | cons b before =>
      rw [List.cons_append] at hs
      injection hs with _ h2
      simp at h2

theorem interleaved_self {α : Type} : ∀ (s : List α), Interleaved [s] s
  | [] => .done (by simp)
  | x :: s => .next (before := []) (after := []) (interleaved_self s)

/-- Streams after each other are one way to interleave them. -/
theorem interleaved_flatten {α : Type} : ∀ (pre : List (List α)) (streams : List (List α)), (∀ s ∈ pre, s = []) →
    Interleaved (pre ++ streams) streams.flatten
  | pre, [], h => .done (by simpa using h)
  | pre, [] :: streams, h => by
    have := interleaved_flatten (pre ++ [[]]) streams (by
      intro s hs
      rcases List.mem_append.mp hs with hs | hs
      · exact h s hs
      · simpa using hs)
    rw [List.append_assoc] at this
    exact this
  | pre, (x :: s) :: streams, h => by
    rw [List.flatten_cons, List.cons_append]
    have := interleaved_flatten pre (s :: streams) h
    rw [List.flatten_cons] at this
    exact .next this
  termination_by _ streams => (streams.flatten.length, streams.length)

theorem collect_failed : ∀ (items : List Item), (collect items).2 = true ↔ Item.error ∈ items
  | [] => by simp [collect]
  | .error :: _ => by simp [collect]
  | .batch b :: rest => by simp [collect, collect_failed rest]

/-- The batches in a list of items. -/
def batchesIn (items : List Item) : List Batch :=
  items.filterMap fun
    | .batch b => some b
    | .error => none

theorem collect_batches : ∀ (items : List Item), Item.error ∉ items → (collect items).1 = batchesIn items
  | [], _ => rfl
  | .error :: _, h => absurd List.mem_cons_self h
  | .batch b :: rest, h => by
    rw [collect, collect_batches rest fun he => h (List.mem_cons_of_mem _ he)]
    rfl

/-- An error of a stream reaches the reader, if all before it can be encoded. -/
theorem error_received (t : Transport) (schema : List Field) : ∀ (items : List Item), (∀ b, Item.batch b ∈ items → t.encodes b = true) →
    Item.error ∈ items → Item.error ∈ receiveItems t schema (sendItems t items)
  | [], _, h => by simp at h
  | .error :: _, _, _ => by simp [sendItems, receiveItems]
  | .batch b :: rest, he, h => by
    have h' : Item.error ∈ rest := by simpa using h
    rw [sendItems, if_pos (he b List.mem_cons_self), receiveItems]
    have := error_received t schema rest (fun b hb => he b (List.mem_cons_of_mem _ hb)) h'
    split
    · exact List.mem_cons_of_mem _ this
    · exact List.mem_cons_self

/-- A batch that is too large gives the reader an error. -/
theorem large_received (t : Transport) (schema : List Field) : ∀ (items : List Item), (∀ b, Item.batch b ∈ items → t.encodes b = true) →
    (∃ b, Item.batch b ∈ items ∧ t.limit < t.size (encode b)) → Item.error ∈ receiveItems t schema (sendItems t items)
  | [], _, ⟨_, h, _⟩ => by simp at h
  | .error :: _, _, _ => by simp [sendItems, receiveItems]
  | .batch b :: rest, he, ⟨c, hc, hl⟩ => by
    rw [sendItems, if_pos (he b List.mem_cons_self), receiveItems]
    split
    · rename_i hs
      refine List.mem_cons_of_mem _ (large_received t schema rest (fun b hb => he b (List.mem_cons_of_mem _ hb)) ⟨c, ?_, hl⟩)
      rcases List.mem_cons.mp hc with h | h
      · injection h with h
        subst h
        omega
      · exact h
    · exact List.mem_cons_self

/-- If the reader gets no error it gets what was sent. -/
theorem received_same (t : Transport) (schema : List Field) : ∀ (items : List Item), (∀ b, Item.batch b ∈ items → t.encodes b = true) →
    (∀ b, Item.batch b ∈ items → TypedBatch t.utf8 b ∧ b.schema = schema) → Item.error ∉ receiveItems t schema (sendItems t items) →
    receiveItems t schema (sendItems t items) = items
  | [], _, _, _ => rfl
  | .error :: _, _, _, h => by simp [sendItems, receiveItems] at h
  | .batch b :: rest, he, ht, h => by
    obtain ⟨h1, h2⟩ := ht b List.mem_cons_self
    have hd := Props.put_decode_encode t.utf8 (table := schema) h1 (by rw [h2])
    rw [sendItems, if_pos (he b List.mem_cons_self), receiveItems] at h ⊢
    split at h
    · rename_i hs
      rw [if_pos hs]
      rw [hd] at h ⊢
      dsimp only at h ⊢
      rw [received_same t schema rest (fun b hb => he b (List.mem_cons_of_mem _ hb)) (fun b hb => ht b (List.mem_cons_of_mem _ hb))
        fun he => h (List.mem_cons_of_mem _ he), ← h2]
    · exact absurd List.mem_cons_self h

/-- Streams without errors whose batches are small are received without an error. -/
theorem small_received (t : Transport) (schema : List Field) : ∀ (items : List Item), (∀ b, Item.batch b ∈ items → t.encodes b = true) →
    (∀ b, Item.batch b ∈ items → TypedBatch t.utf8 b ∧ b.schema = schema) → (∀ b, Item.batch b ∈ items → t.size (encode b) ≤ t.limit) →
    Item.error ∉ items → receiveItems t schema (sendItems t items) = items
  | [], _, _, _, _ => rfl
  | .error :: _, _, _, _, h => absurd List.mem_cons_self h
  | .batch b :: rest, he, ht, hs, h => by
    obtain ⟨h1, h2⟩ := ht b List.mem_cons_self
    have hd := Props.put_decode_encode t.utf8 (table := schema) h1 (by rw [h2])
    rw [sendItems, if_pos (he b List.mem_cons_self), receiveItems, if_pos (hs b List.mem_cons_self), hd]
    dsimp only
    rw [small_received t schema rest (fun b hb => he b (List.mem_cons_of_mem _ hb)) (fun b hb => ht b (List.mem_cons_of_mem _ hb))
      (fun b hb => hs b (List.mem_cons_of_mem _ hb)) fun he => h (List.mem_cons_of_mem _ he), ← h2]

/-- The reader gets only batches that were sent. -/
theorem received_mem (t : Transport) (schema : List Field) : ∀ (items : List Item),
    (∀ b, Item.batch b ∈ items → TypedBatch t.utf8 b ∧ b.schema = schema) →
    ∀ b, Item.batch b ∈ receiveItems t schema (sendItems t items) → Item.batch b ∈ items
  | [], _, _, h => by simp [sendItems, receiveItems] at h
  | .error :: _, _, _, h => by simp [sendItems, receiveItems] at h
  | .batch c :: rest, ht, b, h => by
    obtain ⟨h1, h2⟩ := ht c List.mem_cons_self
    have hd := Props.put_decode_encode t.utf8 (table := schema) h1 (by rw [h2])
    rw [sendItems] at h
    split at h
    · rw [receiveItems] at h
      split at h
      · rw [hd, ← h2] at h
        rcases List.mem_cons.mp h with h | h
        · rw [h]
          exact List.mem_cons_self
        · rw [h2] at h
          exact List.mem_cons_of_mem _ (received_mem t schema rest (fun b hb => ht b (List.mem_cons_of_mem _ hb)) b h)
      · simp at h
    · simp [receiveItems] at h

theorem clientReads_send (t : Transport) (s : Stream) : clientReads t (sendQueryResult t s) =
    ⟨some s.schema, (collect (receiveItems t s.schema (sendItems t s.items))).1, (collect (receiveItems t s.schema (sendItems t s.items))).2⟩ := rfl

/-- The streams that the node reads. -/
theorem received_eq (t : Transport) : ∀ (others received : List Stream),
    others.map (fun s => receive t (sendQueryResult t s)) = received.map some →
    received = others.map fun s => ⟨s.schema, receiveItems t s.schema (sendItems t s.items)⟩
  | [], [], _ => rfl
  | [], _ :: _, h => by simp at h
  | _ :: _, [], h => by simp at h
  | s :: others, r :: received, h => by
    rw [List.map_cons, List.map_cons] at h
    injection h with h1 h2
    rw [List.map_cons, ← received_eq t others received h2]
    congr 1
    exact (Option.some.inj h1).symm

theorem batchesIn_append (a b : List Item) : batchesIn (a ++ b) = batchesIn a ++ batchesIn b := List.filterMap_append

theorem mem_batchesIn {items : List Item} {b : Batch} : b ∈ batchesIn items ↔ Item.batch b ∈ items := by
  unfold batchesIn
  rw [List.mem_filterMap]
  constructor
  · rintro ⟨x, hx, h⟩
    cases x with
    | error => simp at h
    | batch c =>
      injection h with h
      subst h
      exact hx
  · exact fun h => ⟨_, h, rfl⟩

theorem batchesIn_flatten : ∀ (streams : List (List Item)), batchesIn streams.flatten = streams.flatMap batchesIn
  | [] => rfl
  | s :: streams => by rw [List.flatten_cons, batchesIn_append, batchesIn_flatten streams, List.flatMap_cons]

/-! ### One batch of several -/

/-- A column with values of the kind of the type. -/
def Kind (n : Nat) : ColumnType → Column → Prop
  | .fixed _ _, .fixed values => values.length = n
  | .text, .text values => values.length = n
  | _, _ => False

def KindBatch (b : Batch) : Prop := List.Forall₂ (fun (f : Field) c => Kind b.length f.type c) b.schema b.columns

theorem kind_of_typed {utf8 : List Nat → Bool} {b : Batch} (h : TypedBatch utf8 b) : KindBatch b := by
  refine List.Forall₂.imp ?_ h
  intro f c hc
  cases f with
  | mk name type =>
    cases type <;> cases c <;> first | exact hc.1 | exact hc.elim

/-- The value in a row of a column. -/
def valueIn (f : Field) (c : Column) (row : Nat) : Option (ColumnType × (Nat ⊕ List Nat)) :=
  match c with
  | .fixed values => values[row]?.map fun v => (f.type, .inl v)
  | .text values => values[row]?.map fun v => (f.type, .inr v)

theorem valueIn_append {f : Field} {n m : Nat} {a b : Column} (ha : Kind n f.type a) (hb : Kind m f.type b) :
    ∃ c, appendColumn a b = some c ∧ Kind (n + m) f.type c ∧
      ∀ row, valueIn f c row = if row < n then valueIn f a row else valueIn f b (row - n) := by
  obtain ⟨name, type⟩ := f
  cases type with
  | fixed nm w =>
    cases a with
    | text _ => exact ha.elim
    | fixed av =>
      cases b with
      | text _ => exact hb.elim
      | fixed bv =>
        have ha : av.length = n := ha
        have hb : bv.length = m := hb
        refine ⟨_, rfl, ?_, ?_⟩
        · show (av ++ bv).length = n + m
          rw [List.length_append, ha, hb]
        · intro row
          unfold valueIn
          dsimp only
          rw [List.getElem?_append, ha]
          split <;> rfl
  | text =>
    cases a with
    | fixed _ => exact ha.elim
    | text av =>
      cases b with
      | fixed _ => exact hb.elim
      | text bv =>
        have ha : av.length = n := ha
        have hb : bv.length = m := hb
        refine ⟨_, rfl, ?_, ?_⟩
        · show (av ++ bv).length = n + m
          rw [List.length_append, ha, hb]
        · intro row
          unfold valueIn
          dsimp only
          rw [List.getElem?_append, ha]
          split <;> rfl

/-- `valueOf` for columns. -/
def valueAmong (fields : List Field) (columns : List Column) (row : Nat) (name : String) : Option (ColumnType × (Nat ⊕ List Nat)) :=
  ((fields.zip columns).find? (·.1.name == name)).bind fun x => valueIn x.1 x.2 row

theorem valueOf_eq (b : Batch) (row : Nat) (name : String) : valueOf b row name = valueAmong b.schema b.columns row name := rfl

theorem valueAmong_append {n m : Nat} : ∀ {fields : List Field} {as bs : List Column},
    List.Forall₂ (fun (f : Field) c => Kind n f.type c) fields as → List.Forall₂ (fun (f : Field) c => Kind m f.type c) fields bs →
    ∃ cs, appendColumns as bs = some cs ∧ List.Forall₂ (fun (f : Field) c => Kind (n + m) f.type c) fields cs ∧
      ∀ row name, valueAmong fields cs row name = if row < n then valueAmong fields as row name else valueAmong fields bs (row - n) name
  | [], _, _, .nil, .nil => ⟨[], rfl, .nil, fun _ _ => by split <;> rfl⟩
  | f :: fs, a :: as, b :: bs, .cons ha has, .cons hb hbs => by
    obtain ⟨c, h1, h2, h3⟩ := valueIn_append ha hb
    obtain ⟨cs, h4, h5, h6⟩ := valueAmong_append has hbs
    refine ⟨c :: cs, ?_, .cons h2 h5, ?_⟩
    · rw [appendColumns, h1, Option.bind_some, h4]
      rfl
    · intro row name
      have key : ∀ (x : Column) (xs : List Column) (r : Nat), valueAmong (f :: fs) (x :: xs) r name =
          if f.name == name then valueIn f x r else valueAmong fs xs r name := by
        intro x xs r
        unfold valueAmong
        rw [List.zip_cons_cons, List.find?_cons]
        cases h : (f.name == name) <;> simp
      rw [key, key, key, h3, h6]
      cases h : (f.name == name) <;> simp

theorem concat_rows : ∀ (rest : List Batch) (first : Batch), KindBatch first → (∀ b ∈ rest, KindBatch b ∧ b.schema = first.schema) →
    ∃ r, concatBatches first rest = some r ∧ r.schema = first.schema ∧ rows r = (first :: rest).flatMap rows
  | [], first, _, _ => ⟨first, rfl, rfl, by rw [List.flatMap_cons, List.flatMap_nil, List.append_nil]⟩
  | b :: rest, first, hf, hr => by
    obtain ⟨hb, hs⟩ := hr b List.mem_cons_self
    unfold KindBatch at hf hb
    rw [hs] at hb
    obtain ⟨cs, h1, h2, h3⟩ := valueAmong_append hf hb
    obtain ⟨r, h4, h5, h6⟩ := concat_rows rest ⟨first.schema, first.length + b.length, cs⟩ h2 fun x hx => hr x (List.mem_cons_of_mem _ hx)
    refine ⟨r, ?_, h5, ?_⟩
    · rw [concatBatches, h1, Option.bind_some, h4]
    · rw [h6, List.flatMap_cons, List.flatMap_cons, List.flatMap_cons, ← List.append_assoc]
      congr 1
      unfold rows
      dsimp only
      rw [List.range_add, List.map_append, List.map_map]
      congr 1
      · refine List.map_congr_left ?_
        intro i hi
        rw [List.mem_range] at hi
        funext name
        rw [valueOf_eq, valueOf_eq]
        dsimp only
        rw [h3, if_pos hi]
      · refine List.map_congr_left ?_
        intro i _
        funext name
        rw [Function.comp_apply, valueOf_eq, valueOf_eq]
        dsimp only
        rw [h3, if_neg (by omega), hs, Nat.add_sub_cancel_left]

end ModelarDB.Lemmas.QueryResult
