import Verif.Props.C22
/-
C21: Different series never share a buffer.
-/
namespace ModelarDB.Props
open Model.Storage Spec.Storage Lemmas.Storage

variable {α : Type}

/-- The hashes of these series are equal whatever the hash function is: the tags are concatenated without a separator
(uncompressed_data_manager.rs:619-630). -/
theorem C21_hash_collision (env : Env α) :
    calculateTagHash env "t" ["ab", "c"] = calculateTagHash env "t" ["a", "bc"] ∧
      calculateTagHash env "t" ["ab"] = calculateTagHash env "bt" ["a"] ∧
      calculateTagHash env "t" ["a", ""] = calculateTagHash env "t" ["", "a"] := by
  refine ⟨congrArg env.hasher ?_, congrArg env.hasher ?_, congrArg env.hasher ?_⟩ <;> decide +kernel

/-- C21 is false, whatever the hash function is: rows of two series of a table with two tag columns arrive in one batch and both are
put in the buffer of the first series, so that the second is stored with the tags of the first. Nothing else is needed than a
capacity of more than two rows and memory for one buffer. -/
theorem C21_not_separate (env : Env α) (hcap : 3 ≤ env.capacity) (v w : α) :
    ∃ e, (Engine.new 2 (computeMemorySize env "t") 0).run env
        [.insert "t" [⟨"t", ["ab", "c"], 1, v⟩, ⟨"t", ["a", "bc"], 1, w⟩] none 2, .ingestionTake, .ingestionRow true, .ingestionRow true] =
        some e ∧
      e.received = [⟨"t", ["ab", "c"], 1, v⟩, ⟨"t", ["a", "bc"], 1, w⟩] ∧
      allRows e = [⟨"t", ["ab", "c"], 1, v⟩, ⟨"t", ["ab", "c"], 1, w⟩] := by
  have hc := (C21_hash_collision env).1
  have hf : ∀ b : MemoryBuffer α, b.points.length = 2 → b.isFull env = false := by
    intro b hb
    unfold MemoryBuffer.isFull
    rw [hb, beq_eq_false_iff_ne]
    omega
  simp [Engine.run, Engine.step, Engine.new, insertDataPoint, reserve, MemoryBuffer.new, MemoryBuffer.insert, putMemory, hc,
    MemoryBuffer.insertBatchId, placeBuffer, hf, allRows, savedRows, compressedRows, finishedRows, openRows, queuedRows, memoryRows, rowsOf]

theorem utf8_injective {s s' : String} (h : s.toUTF8.data.toList = s'.toUTF8.data.toList) : s = s' := by
  have h1 : s.toUTF8.data = s'.toUTF8.data := Array.toList_inj.mp h
  have h2 : s.toUTF8 = s'.toUTF8 := ByteArray.ext h1
  exact String.toByteArray_inj.mp h2

theorem flatMap_utf8_injective : ∀ {tags tags' : List String}, tags.map (fun s => s.toUTF8.size) = tags'.map (fun s => s.toUTF8.size) →
    tags.flatMap (fun s => s.toUTF8.data.toList) = tags'.flatMap (fun s => s.toUTF8.data.toList) → tags = tags'
  | [], [], _, _ => rfl
  | [], _ :: _, h, _ => by simp at h
  | _ :: _, [], h, _ => by simp at h
  | s :: tags, s' :: tags', h, he => by
    rw [List.map_cons, List.map_cons, List.cons.injEq] at h
    rw [List.flatMap_cons, List.flatMap_cons] at he
    obtain ⟨h1, h2⟩ := List.append_inj he (by rw [Array.length_toList, Array.length_toList]; exact h.1)
    rw [utf8_injective h1, flatMap_utf8_injective h.2 h2]

/-- Two rows whose series cannot be confused: the name of neither table is the end of the name of the other, and if the rows are of the same
table, it has at most one tag column or the tags have the same lengths. -/
def Distinguishable (r r' : Row α) : Prop :=
  (r.table.toUTF8.data.toList <:+ r'.table.toUTF8.data.toList → r.table = r'.table) ∧
    (r.table = r'.table → (r.tags.length = r'.tags.length ∧ r.tags.length ≤ 1) ∨
      r.tags.map (fun s => s.toUTF8.size) = r'.tags.map (fun s => s.toUTF8.size))

/-- What is hashed for a row. -/
def hashed (r : Row α) : List UInt8 := r.tags.flatMap (fun s => s.toUTF8.data.toList) ++ r.table.toUTF8.data.toList

theorem hash_injective {env : Env α} {r r' : Row α} (hh : env.hasher (hashed r) = env.hasher (hashed r') → hashed r = hashed r') (h : Distinguishable r r')
    (h' : Distinguishable r' r) (he : calculateTagHash env r.table r.tags = calculateTagHash env r'.table r'.tags) :
    r.table = r'.table ∧ r.tags = r'.tags := by
  have h1 := hh he
  unfold hashed at h1
  have ht : r.table = r'.table := by
    have s1 : r.table.toUTF8.data.toList <:+ r.tags.flatMap (fun s => s.toUTF8.data.toList) ++ r.table.toUTF8.data.toList :=
      List.suffix_append _ _
    have s2 : r'.table.toUTF8.data.toList <:+ r.tags.flatMap (fun s => s.toUTF8.data.toList) ++ r.table.toUTF8.data.toList := by
      rw [h1]
      exact List.suffix_append _ _
    rcases List.suffix_or_suffix_of_suffix s1 s2 with h2 | h2
    · exact h.1 h2
    · exact (h'.1 h2).symm
  refine ⟨ht, ?_⟩
  rw [ht, List.append_cancel_right_eq] at h1
  rcases h.2 ht with ⟨h2, h3⟩ | h2
  · cases htags : r.tags with
    | nil =>
      rw [htags, List.length_nil] at h2
      exact (List.eq_nil_of_length_eq_zero h2.symm).symm
    | cons s tags =>
      cases htags' : r'.tags with
      | nil => rw [htags, htags'] at h2; simp at h2
      | cons s' tags' =>
        rw [htags] at h3 h2 h1
        rw [htags'] at h2 h1
        obtain rfl : tags = [] := List.eq_nil_of_length_eq_zero (by rw [List.length_cons] at h3; omega)
        obtain rfl : tags' = [] := List.eq_nil_of_length_eq_zero (by rw [List.length_cons, List.length_cons, List.length_nil] at h2; omega)
        have h4 : s = s' := utf8_injective (by simpa only [List.flatMap_cons, List.flatMap_nil, List.append_nil] using h1)
        rw [h4]
  · exact flatMap_utf8_injective h2 h1

/-- C21 for tables with at most one tag column whose names are not the ends of each other, or tags of fixed lengths: if the hash function
has no collisions for the series received, then no buffer has rows of two series. At any moment the rows in the buffers and behind them are the rows received, each
with its own table and tags. Missing: tables with several tag columns and tags of different lengths, tables whose
names are the ends of each other, collisions of the hash function (`C21_not_separate`), and the restrictions of C22. -/
theorem C21_separate_partial {env : Env α} (hs : Sorts env) (hcap : 2 ≤ env.capacity) {i u c : Nat}
    {ops : List (Op α)} (hio : ∀ op ∈ ops, Op.ioOk op) {e : Engine α} (hrun : (Engine.new i u c).run env ops = some e)
    (hh : ∀ r ∈ e.received, ∀ r' ∈ e.received, env.hasher (hashed r) = env.hasher (hashed r') → hashed r = hashed r')
    (hkeys : (e.received.map key).Nodup) (hd : ∀ r ∈ e.received, ∀ r' ∈ e.received, Distinguishable r r') :
    (∀ r ∈ e.received, ∀ r' ∈ e.received, calculateTagHash env r.table r.tags = calculateTagHash env r'.table r'.tags →
      r.table = r'.table ∧ r.tags = r'.tags) ∧ (allRows e).Perm e.received := by
  have h : ∀ r ∈ e.received, ∀ r' ∈ e.received, calculateTagHash env r.table r.tags = calculateTagHash env r'.table r'.tags →
      r.table = r'.table ∧ r.tags = r'.tags :=
    fun r hr r' hr' => hash_injective (hh r hr r' hr') (hd r hr r' hr') (hd r' hr' r hr)
  exact ⟨h, C22_exact_partial hs hcap hio hrun ⟨h, hkeys⟩⟩

example : ∀ r ∈ [rowA 1 7, rowB 1 8, rowC 1 8], ∀ r' ∈ [rowA 1 7, rowB 1 8, rowC 1 8], Distinguishable r r' := by
  simp only [Distinguishable]
  decide +kernel

end ModelarDB.Props
