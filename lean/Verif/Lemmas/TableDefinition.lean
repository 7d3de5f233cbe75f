import Verif.Spec.TableDefinition
import Mathlib.Data.List.Basic
/-
Lemmas about table definitions.
-/
namespace ModelarDB.Lemmas
open Model Model.TableDefinition Spec

variable {ε : Type}

theorem wg_length : ∀ (i : Nat) (cs : List Column) (bs : List ErrorBound) (gs : List (Option (Generated ε))),
    (withoutGenerated i cs bs gs).1.length = (withoutGenerated i cs bs gs).2.1.length ∧
      (withoutGenerated i cs bs gs).2.2.length = (withoutGenerated i cs bs gs).2.1.length
  | i, c :: cs, b :: bs, g :: gs => by
    have := wg_length (i + 1) cs bs gs
    unfold withoutGenerated
    cases g <;> simp [this]
  | _, [], _, _ => by simp [withoutGenerated]
  | _, _ :: _, [], _ => by simp [withoutGenerated]
  | _, _ :: _, _ :: _, [] => by simp [withoutGenerated]

theorem wg_mem : ∀ (i : Nat) (cs : List Column) (bs : List ErrorBound) (gs : List (Option (Generated ε))) (k : Nat),
    cs.length = bs.length → cs.length = gs.length →
    (k ∈ (withoutGenerated i cs bs gs).2.1 ↔ ∃ n, k = i + n ∧ gs[n]? = some none)
  | i, c :: cs, b :: bs, g :: gs, k, h1, h2 => by
    have ih := wg_mem (i + 1) cs bs gs k (by simpa using h1) (by simpa using h2)
    unfold withoutGenerated
    cases g with
    | none =>
      simp only [Option.isNone_none, if_true, List.mem_cons, ih]
      constructor
      · rintro (rfl | ⟨n, rfl, hn⟩)
        · exact ⟨0, rfl, rfl⟩
        · exact ⟨n + 1, by omega, hn⟩
      · rintro ⟨n, rfl, hn⟩
        cases n with
        | zero => exact .inl rfl
        | succ n => exact .inr ⟨n, by omega, hn⟩
    | some g =>
      simp only [Option.isNone_some, Bool.false_eq_true, if_false, ih]
      constructor
      · rintro ⟨n, rfl, hn⟩
        exact ⟨n + 1, by omega, hn⟩
      · rintro ⟨n, rfl, hn⟩
        cases n with
        | zero => simp at hn
        | succ n => exact ⟨n, by omega, hn⟩
  | _, [], _, [], _, _, _ => by simp [withoutGenerated]
  | _, [], _, _ :: _, _, _, h => by simp at h
  | _, _ :: _, [], _, _, h, _ => by simp at h
  | _, _ :: _, _ :: _, [], _, _, h => by simp at h

theorem wg_ge : ∀ (i : Nat) (cs : List Column) (bs : List ErrorBound) (gs : List (Option (Generated ε))),
    ∀ k ∈ (withoutGenerated i cs bs gs).2.1, i ≤ k
  | i, c :: cs, b :: bs, g :: gs => by
    have ih := wg_ge (i + 1) cs bs gs
    unfold withoutGenerated
    cases g with
    | none =>
      simp only [Option.isNone_none, if_true, List.mem_cons]
      rintro k (rfl | hk)
      · exact Nat.le_refl _
      · have := ih k hk
        omega
    | some g =>
      simp only [Option.isNone_some, Bool.false_eq_true, if_false]
      intro k hk
      have := ih k hk
      omega
  | _, [], _, _ => by simp [withoutGenerated]
  | _, _ :: _, [], _ => by simp [withoutGenerated]
  | _, _ :: _, _ :: _, [] => by simp [withoutGenerated]

theorem wg_sorted : ∀ (i : Nat) (cs : List Column) (bs : List ErrorBound) (gs : List (Option (Generated ε))),
    (withoutGenerated i cs bs gs).2.1.Pairwise (· < ·)
  | i, c :: cs, b :: bs, g :: gs => by
    have ih := wg_sorted (i + 1) cs bs gs
    have hge := wg_ge (i + 1) cs bs gs
    unfold withoutGenerated
    cases g with
    | none =>
      simp only [Option.isNone_none, if_true, List.pairwise_cons]
      exact ⟨fun k hk => hge k hk, ih⟩
    | some g => simpa only [Option.isNone_some, Bool.false_eq_true, if_false] using ih
  | _, [], _, _ => by simp [withoutGenerated]
  | _, _ :: _, [], _ => by simp [withoutGenerated]
  | _, _ :: _, _ :: _, [] => by simp [withoutGenerated]

theorem wg_get : ∀ (i : Nat) (cs : List Column) (bs : List ErrorBound) (gs : List (Option (Generated ε))) (j k : Nat),
    (withoutGenerated i cs bs gs).2.1[j]? = some k →
    ∃ n, k = i + n ∧ n < cs.length ∧ (withoutGenerated i cs bs gs).1[j]? = cs[n]? ∧ (withoutGenerated i cs bs gs).2.2[j]? = bs[n]?
  | i, c :: cs, b :: bs, g :: gs, j, k => by
    have ih := fun j => wg_get (i + 1) cs bs gs j k
    unfold withoutGenerated
    cases g with
    | none =>
      simp only [Option.isNone_none, if_true]
      cases j with
      | zero =>
        intro h
        simp only [List.getElem?_cons_zero, Option.some.injEq] at h
        exact ⟨0, by omega, by simp, rfl, rfl⟩
      | succ j =>
        intro h
        simp only [List.getElem?_cons_succ] at h
        obtain ⟨n, rfl, hn, h1, h2⟩ := ih j h
        exact ⟨n + 1, by omega, by simpa using hn, h1, h2⟩
    | some g =>
      simp only [Option.isNone_some, Bool.false_eq_true, if_false]
      intro h
      obtain ⟨n, rfl, hn, h1, h2⟩ := ih j h
      exact ⟨n + 1, by omega, by simpa using hn, h1, h2⟩
  | _, [], _, _, _, _ => by simp [withoutGenerated]
  | _, _ :: _, [], _, _, _ => by simp [withoutGenerated]
  | _, _ :: _, _ :: _, [], _, _ => by simp [withoutGenerated]

theorem mem_indicesOfType (schema : List Column) (t : DataType) (j : Nat) :
    j ∈ indicesOfType schema t ↔ ∃ c, schema[j]? = some c ∧ c.type = t := by
  unfold indicesOfType
  simp only [List.mem_filter, List.mem_range, decide_eq_true_eq, Option.map_eq_some_iff]
  constructor
  · rintro ⟨_, c, h1, h2⟩
    exact ⟨c, h1, h2⟩
  · rintro ⟨c, h1, h2⟩
    exact ⟨(List.getElem?_eq_some_iff.mp h1).1, c, h1, h2⟩

theorem indicesOfType_sorted (schema : List Column) (t : DataType) : (indicesOfType schema t).Pairwise (· < ·) :=
  List.Pairwise.filter _ List.pairwise_lt_range

theorem checkSources_ok (gs : List (Option (Generated ε))) : ∀ is : List Nat,
    checkSources gs is = .ok () ↔ ∀ s ∈ is, gs[s]? = some none
  | [] => by simp [checkSources]
  | i :: is => by
    have ih := checkSources_ok gs is
    unfold checkSources
    split
    · rename_i h
      simp [h]
    · rename_i h
      simp [h]
    · rename_i h
      simp [h, ih]

theorem checkGenerated_ok (all : List (Option (Generated ε))) : ∀ gs : List (Option (Generated ε)),
    checkGenerated all gs = .ok () ↔ ∀ g : Generated ε, some g ∈ gs → ∀ s ∈ g.sources, all[s]? = some none
  | [] => by simp [checkGenerated]
  | none :: gs => by
    have ih := checkGenerated_ok all gs
    simp only [checkGenerated, ih, List.mem_cons, reduceCtorEq, false_or]
  | some g :: gs => by
    have ih := checkGenerated_ok all gs
    have hs := checkSources_ok all g.sources
    unfold checkGenerated
    cases h : checkSources all g.sources with
    | ok u =>
      simp only [ih, List.mem_cons, Option.some.injEq]
      constructor
      · rintro h' g' (rfl | hg)
        · exact hs.mp h
        · exact h' g' hg
      · intro h' g' hg
        exact h' g' (.inr hg)
    | error e =>
      simp only [reduceCtorEq, List.mem_cons, Option.some.injEq, false_iff]
      intro h'
      rw [hs.mpr (h' g (.inl rfl))] at h
      cases h

/-- What an accepted definition consists of. -/
theorem tryNew_ok {name : String} {qs : List Column} {bs : List ErrorBound} {gs : List (Option (Generated ε))} {m : Metadata ε} :
    tryNew name qs bs gs = .ok m ↔
      qs.length = bs.length ∧ qs.length = gs.length ∧ checkGenerated gs gs = .ok () ∧ qs.length ≤ 32767 ∧
      (∀ c ∈ qs, c.type = .timestamp ∨ c.type = .value ∨ c.type = .string) ∧
      indicesOfType (withoutGenerated 0 qs bs gs).1 .timestamp = [m.timestampIndex] ∧
      indicesOfType (withoutGenerated 0 qs bs gs).1 .value ≠ [] ∧
      m = { name := name, timestampIndex := m.timestampIndex
            fieldIndices := indicesOfType (withoutGenerated 0 qs bs gs).1 .value
            tagIndices := indicesOfType (withoutGenerated 0 qs bs gs).1 .string
            errorBounds := (withoutGenerated 0 qs bs gs).2.2, generated := gs, schema := (withoutGenerated 0 qs bs gs).1
            querySchema := qs, querySchemaToSchema := (withoutGenerated 0 qs bs gs).2.1
            compressedSchema := compressedSchemaBase ++
              (indicesOfType (withoutGenerated 0 qs bs gs).1 .string).filterMap fun i => (withoutGenerated 0 qs bs gs).1[i]? } := by
  have hany : (qs.any fun c => c.type ≠ .timestamp && c.type ≠ .value && c.type ≠ .string) = false ↔
      ∀ c ∈ qs, c.type = .timestamp ∨ c.type = .value ∨ c.type = .string := by
    simp only [List.any_eq_false, Bool.and_eq_true, decide_eq_true_eq]
    constructor
    · intro h c hc
      have := h c hc
      by_contra h'
      simp only [not_or] at h'
      exact this ⟨⟨h'.1, h'.2.1⟩, h'.2.2⟩
    · rintro h c hc ⟨⟨h1, h2⟩, h3⟩
      rcases h c hc with h | h | h <;> contradiction
  constructor
  · intro h
    unfold tryNew at h
    by_cases h1 : qs.length = bs.length
    swap; · simp [h1] at h
    by_cases h2 : qs.length = gs.length
    swap; · rw [if_neg (by simpa using h1), if_pos h2] at h; cases h
    simp only [ne_eq, ← h1, ← h2, not_true_eq_false, if_false] at h
    split at h
    · cases h
    rename_i h3
    by_cases h4 : 32767 < qs.length
    · simp [h4] at h
    by_cases h5 : (qs.any fun c => c.type ≠ .timestamp && c.type ≠ .value && c.type ≠ .string) = true
    · rw [if_neg h4, if_pos h5] at h; cases h
    rw [if_neg h4, if_neg h5] at h
    split at h
    swap; · cases h
    rename_i h6
    split at h
    · cases h
    rename_i h7
    injection h with h
    subst h
    exact ⟨h1, h2, h3, by omega, hany.mp (by simpa using h5), h6, by simpa [List.isEmpty_iff] using h7, rfl⟩
  · rintro ⟨h1, h2, h3, h4, h5, h6, h7, h8⟩
    unfold tryNew
    have h5 := hany.mpr h5
    rw [if_neg (by simpa using h1), if_neg (by simpa using h2)]
    simp only [h3]
    rw [if_neg (by omega), if_neg (by rw [h5]; simp)]
    simp only [h6]
    rw [if_neg (by simpa [List.isEmpty_iff] using h7), h8]

theorem filterMap_getElem?_of_valid {τ : Type} (l : List τ) : ∀ is : List Nat, (∀ i ∈ is, i < l.length) →
    (is.filterMap fun i => l[i]?).length = is.length ∧ ∀ k j : Nat, is[k]? = some j → (is.filterMap fun i => l[i]?)[k]? = l[j]?
  | [], _ => by simp
  | i :: is, h => by
    have ih := filterMap_getElem?_of_valid l is fun i hi => h i (List.mem_cons_of_mem _ hi)
    have hi : l[i]? = some (l[i]'(h i List.mem_cons_self)) := List.getElem?_eq_getElem _
    rw [List.filterMap_cons_some hi]
    refine ⟨by simp [ih.1], ?_⟩
    intro k j hk
    cases k with
    | zero =>
      simp only [List.getElem?_cons_zero, Option.some.injEq] at hk
      subst hk
      rw [List.getElem?_cons_zero, hi]
    | succ k =>
      simp only [List.getElem?_cons_succ] at hk ⊢
      exact ih.2 k j hk

theorem consistent_of_tryNew {name : String} {qs : List Column} {bs : List ErrorBound} {gs : List (Option (Generated ε))}
    {m : Metadata ε} (h : tryNew name qs bs gs = .ok m) : Consistent qs bs gs m := by
  obtain ⟨h1, h2, h3, h4, h5, h6, h7, h8⟩ := tryNew_ok.mp h
  have hl := wg_length 0 qs bs gs
  have htag : ∀ i ∈ indicesOfType (withoutGenerated 0 qs bs gs).1 .string, i < (withoutGenerated 0 qs bs gs).1.length := by
    intro i hi
    obtain ⟨c, hc, _⟩ := (mem_indicesOfType _ _ _).mp hi
    exact (List.getElem?_eq_some_iff.mp hc).1
  have hf := filterMap_getElem?_of_valid _ _ htag
  constructor
  · rw [h8]; exact wg_sorted 0 qs bs gs
  · intro i
    rw [h8]
    dsimp only
    rw [wg_mem 0 qs bs gs i h1 h2]
    simp
  · rw [h8]; exact hl
  · intro j i hj
    rw [h8] at hj ⊢
    obtain ⟨n, rfl, hn, ha, hb⟩ := wg_get 0 qs bs gs j i hj
    rw [Nat.zero_add]
    exact ⟨hn, ha, hb⟩
  · intro j
    rw [← mem_indicesOfType]
    rw [show m.schema = (withoutGenerated 0 qs bs gs).1 by rw [h8], h6, List.mem_singleton]
  · intro j
    rw [h8]
    exact mem_indicesOfType _ _ _
  · intro j
    rw [h8]
    exact mem_indicesOfType _ _ _
  · rw [h8]; exact indicesOfType_sorted _ _
  · rw [h8]; exact indicesOfType_sorted _ _
  · rw [h8]; exact h7
  · intro j hj
    have hj' : j < (withoutGenerated 0 qs bs gs).1.length := by rw [h8] at hj; exact hj
    have hj2 : j < (withoutGenerated 0 qs bs gs).2.1.length := hl.1 ▸ hj'
    obtain ⟨n, hk, hn, ha, _⟩ := wg_get 0 qs bs gs j _ (List.getElem?_eq_getElem hj2)
    have hc : (withoutGenerated 0 qs bs gs).1[j]? = some (qs[n]) := by rw [ha, List.getElem?_eq_getElem hn]
    have e1 : m.fieldIndices = indicesOfType (withoutGenerated 0 qs bs gs).1 .value := by rw [h8]
    have e2 : m.tagIndices = indicesOfType (withoutGenerated 0 qs bs gs).1 .string := by rw [h8]
    rcases h5 _ (List.getElem_mem hn) with ht | ht | ht
    · left
      have := (mem_indicesOfType _ .timestamp j).mpr ⟨_, hc, ht⟩
      rwa [h6, List.mem_singleton] at this
    · right; left
      rw [e1]
      exact (mem_indicesOfType _ _ j).mpr ⟨_, hc, ht⟩
    · right; right
      rw [e2]
      exact (mem_indicesOfType _ _ j).mpr ⟨_, hc, ht⟩
  · rw [h8]
    dsimp only
    rw [List.length_append, hf.1]
  · intro k hk
    rw [h8]
    dsimp only
    rw [List.getElem?_append_left hk]
  · intro k j hk
    rw [h8] at hk ⊢
    dsimp only at hk ⊢
    rw [List.getElem?_append_right (Nat.le_add_right _ _), Nat.add_sub_cancel_left]
    exact hf.2 k j hk
  · intro i g hg s hs
    exact (checkGenerated_ok gs gs).mp h3 g (List.mem_of_getElem? hg) s hs

end ModelarDB.Lemmas
