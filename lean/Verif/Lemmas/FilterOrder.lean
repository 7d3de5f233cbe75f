import Verif.Props.C34
/-
The two filters a filter is rewritten to: a data point is only kept if its segment is, and only its time and its tags matter.
-/
namespace ModelarDB.Lemmas.FilterOrder
open Model Model.Query Model.TableDefinition Spec Lemmas Props

variable {ε σ : Type}

/-- The filters `planFilters` returns and what is known of them. -/
theorem planFilters_ok {m : Metadata ε} {filters : List Expr} {parquet grid : Option Expr} (h : planFilters m filters = .ok (parquet, grid)) :
    ∃ rs, rewriteFilters m.schema filters = .ok rs ∧ parquet = conjunction (rs.map Prod.fst) ∧ grid = conjunction (rs.map Prod.snd) ∧
      (∀ e, parquet = some e → convertible (queryCompressedBase ++ tagColumns m) e.refs = true) ∧
      ∀ e, grid = some e → convertible (gridBase ++ tagColumns m) e.refs = true := by
  unfold planFilters at h
  split at h
  · cases h
  rename_i pe ge hcomb
  unfold rewriteAndCombineFilters at hcomb
  split at hcomb
  · cases hcomb
  rename_i rs hrs
  simp only [Except.ok.injEq, Prod.mk.injEq] at hcomb
  obtain ⟨rfl, rfl⟩ := hcomb
  split at h
  rotate_left
  · cases h
  · cases h
  rename_i pe ge hpe hge
  simp only [Except.ok.injEq, Prod.mk.injEq] at h
  obtain ⟨rfl, rfl⟩ := h
  have hpe' : pe = conjunction (rs.map Prod.fst) ∧ ∀ e, pe = some e → convertible (queryCompressedBase ++ tagColumns m) e.refs = true := by
    unfold tryConvert at hpe
    split at hpe
    · cases hpe; rename_i h; exact ⟨h.symm, by simp⟩
    · rename_i h
      split at hpe
      · rename_i hc
        cases hpe
        exact ⟨h.symm, by rintro e ⟨⟩; exact hc⟩
      · cases hpe
  have hge' : ge = conjunction (rs.map Prod.snd) ∧ ∀ e, ge = some e → convertible (gridBase ++ tagColumns m) e.refs = true := by
    unfold tryConvert at hge
    split at hge
    · cases hge; rename_i h; exact ⟨h.symm, by simp⟩
    · rename_i h
      split at hge
      · rename_i hc
        cases hge
        exact ⟨h.symm, by rintro e ⟨⟩; exact hc⟩
      · cases hge
  exact ⟨rs, hrs, hpe'.1, hge'.1, hpe'.2, hge'.2⟩

/-- What a rewritten filter looks like: both filters compare with the same operand, and the filter for data points compares the timestamp. -/
theorem rewritten_operand {schema : List Column} {f : Expr} {r : Expr × Expr} (hrev : ¬ ReversedEquality schema f)
    (h : rewriteFilter schema f = .ok (some r)) :
    ∃ (op : Op) (o : Expr), (rewriteLeft op o = some r ∧ r.2 = .binary (.column "timestamp") op o ∨
        op ≠ .eq ∧ ∃ c, rewriteRight o op c = some r ∧ r.2 = .binary o op (.column "timestamp")) ∧
      (∀ n ∈ o.refs, n ∈ r.1.refs ∧ n ∈ r.2.refs) := by
  have hname : ∀ {n : String} {field : Column}, fieldWithName schema n = some field → field.name = n := by
    intro n field h
    simpa using List.find?_some h
  unfold rewriteFilter at h
  split at h
  · rename_i n op right
    split at h
    · cases h
    rename_i field hfield
    simp only [Except.ok.injEq] at h
    split at h
    · refine ⟨op, right, Or.inl ⟨h, ?_⟩, ?_⟩
      · cases op <;> simp only [rewriteLeft, Option.some.injEq, reduceCtorEq] at h <;> subst h <;> rfl
      · intro n hn
        cases op <;> simp only [rewriteLeft, Option.some.injEq, reduceCtorEq] at h <;> subst h <;> simp [Expr.refs, hn]
    · cases h
  · rename_i left op n hleft
    split at h
    · cases h
    rename_i field hfield
    have hn := hname hfield
    subst hn
    simp only [Except.ok.injEq] at h
    split at h
    · rename_i ht
      have hmem := List.mem_of_find?_eq_some hfield
      have hop : op ≠ .eq := by
        rintro rfl
        apply hrev
        cases left with
        | column n => exact absurd rfl (hleft n)
        | constant v => exact ⟨field, hmem, rfl, ht⟩
        | other id refs => exact ⟨field, hmem, rfl, ht⟩
        | binary l o r => exact ⟨field, hmem, rfl, ht⟩
      refine ⟨op, left, Or.inr ⟨hop, .column field.name, h, ?_⟩, ?_⟩
      · cases op <;> simp only [rewriteRight, Option.some.injEq, reduceCtorEq, ne_eq, not_true_eq_false] at h hop <;> subst h <;> rfl
      · intro n hn
        cases op <;> try exact absurd rfl hop
        all_goals simp only [rewriteRight, Option.some.injEq, reduceCtorEq] at h
        all_goals subst h
        all_goals simp [Expr.refs, hn]
    · cases h
  · cases h

/-- The value of a tag column does not depend on the value of a data point. -/
theorem same_tag {m : Metadata ε} (h : ((gridBase ++ tagColumns m).map (·.name)).Nodup) {n : String} (hn : n ∈ (tagColumns m).map (·.name))
    {p q : Point} (ht : p.time = q.time) (htags : p.tags = q.tags) : pointEnv m p n = pointEnv m q n := by
  unfold pointEnv lookup
  cases hi : indexOf (gridBase ++ tagColumns m) n with
  | none => rfl
  | some i =>
    simp only
    have h1 : i ≠ 1 := by
      rintro rfl
      obtain ⟨hlt, hname, _⟩ := List.findIdx?_eq_some_iff_getElem.mp hi
      have hname : n = "value" := by
        have : "value" = n := of_decide_eq_true hname
        exact this.symm
      subst hname
      rw [List.map_append, List.nodup_append] at h
      exact h.2.2 "value" (by decide) "value" hn rfl
    have : (pointValues p)[i]? = (pointValues q)[i]? := by
      unfold pointValues
      rw [ht, htags]
      match i, h1 with
      | 0, _ => rfl
      | i + 2, _ => rfl
    rw [this]

/-- A data point is only kept if its segment is kept, and if a data point is kept depends on its time and its tags only. -/
theorem grid_spec {qs : List Column} {bs : List ErrorBound} {gs : List (Option (Generated ε))} {m : Metadata ε} (hm : Consistent qs bs gs m)
    (I : Interpretation) {filters : List Expr} {parquet grid : Option Expr} (hplan : planFilters m filters = .ok (parquet, grid))
    (hrev : ∀ f ∈ filters, ¬ ReversedEquality m.schema f) :
    (∀ (segment : SegmentOf σ) (rest : Nat → Value) (s : σ), segment.Valid s → ∀ p ∈ segment.points s, p.tags.length = m.tagIndices.length →
      Keeps I grid (pointEnv m p) → Keeps I parquet (segmentEnv m segment rest s)) ∧
    ∀ p q : Point, p.time = q.time → p.tags = q.tags → Keeps I grid (pointEnv m p) → Keeps I grid (pointEnv m q) := by
  obtain ⟨rs, hrs, hpe, hge, hpc, hgc⟩ := planFilters_ok hplan
  -- The operands only refer to tags.
  have hrefTag : ∀ r ∈ rs, ∀ n, n ∈ r.1.refs → n ∈ r.2.refs → n ∈ (tagColumns m).map (·.name) ∧
      ((queryCompressedBase ++ tagColumns m).map (·.name)).Nodup ∧ ((gridBase ++ tagColumns m).map (·.name)).Nodup := by
    intro r hr n h1 h2
    obtain ⟨e1, he1⟩ : ∃ e, conjunction (rs.map Prod.fst) = some e := by
      cases rs with
      | nil => simp at hr
      | cons _ _ => exact ⟨_, rfl⟩
    obtain ⟨e2, he2⟩ : ∃ e, conjunction (rs.map Prod.snd) = some e := by
      cases rs with
      | nil => simp at hr
      | cons _ _ => exact ⟨_, rfl⟩
    have hc1 := hpc e1 (by rw [hpe, he1])
    have hc2 := hgc e2 (by rw [hge, he2])
    have g1 := conjunction_refs he1 r.1 (List.mem_map_of_mem hr) n h1
    have g2 := conjunction_refs he2 r.2 (List.mem_map_of_mem hr) n h2
    exact ⟨ref_is_tag hc1 hc2 g1 g2, (convertible_iff.mp hc1).1, (convertible_iff.mp hc2).1⟩
  have htag : ∀ r ∈ rs, ∀ n, n ∈ r.1.refs → n ∈ r.2.refs → ∀ tags : List String, tags.length = m.tagIndices.length → ∃ v,
      (∀ p : Point, p.tags = tags → pointEnv m p n = v) ∧
      ∀ (segment : SegmentOf σ) (rest : Nat → Value) (s : σ), segment.tags s = tags → segmentEnv m segment rest s n = v := by
    intro r hr n h1 h2 tags htags
    obtain ⟨hmem, hn1, hn2⟩ := hrefTag r hr n h1 h2
    obtain ⟨c, hc, rfl⟩ := List.mem_map.mp hmem
    obtain ⟨k, hk⟩ := List.mem_iff_getElem?.mp hc
    have hvalidIdx : ∀ i ∈ m.tagIndices, i < m.schema.length := by
      intro i hi
      obtain ⟨c, hc, _⟩ := (hm.tags i).mp hi
      exact (List.getElem?_eq_some_iff.mp hc).1
    obtain ⟨hlen, _⟩ := filterMap_getElem?_of_valid m.schema m.tagIndices hvalidIdx
    have hklt : k < tags.length := by
      rw [htags, ← hlen]
      exact (List.getElem?_eq_some_iff.mp hk).1
    have htag : tags[k]? = some tags[k] := List.getElem?_eq_getElem hklt
    exact ⟨.text tags[k], fun p hp => lookup_tag rfl hn2 hk (by rw [hp]; exact htag),
      fun segment rest s hs => lookup_tag rfl hn1 hk (by rw [hs]; exact htag)⟩
  constructor
  · intro segment rest s hvalid p hp hcount hkeep
    rw [hge, keeps_conjunction] at hkeep
    rw [hpe, keeps_conjunction]
    simp only [List.mem_map, forall_exists_index, and_imp, forall_apply_eq_imp_iff₂] at hkeep ⊢
    intro r hr
    have h2 := hkeep r hr
    obtain ⟨f, hf, hfr⟩ := rewriteFilters_mem hrs r hr
    obtain ⟨hle, hge'⟩ := hvalid.times p hp
    obtain ⟨op, o, hcase, hrefs⟩ := rewritten_operand (hrev f hf) hfr
    have hsame : o.eval I (segmentEnv m segment rest s) = o.eval I (pointEnv m p) := by
      refine eval_congr I o fun n hn => ?_
      obtain ⟨v, hv1, hv2⟩ := htag r hr n (hrefs n hn).1 (hrefs n hn).2 p.tags hcount
      rw [hv1 p rfl, hv2 segment rest s (hvalid.tags p hp).symm]
    rcases hcase with ⟨hl, h2eq⟩ | ⟨hop, c, hl, h2eq⟩
    · rw [h2eq] at h2
      exact (rewriteLeft_keeps hl (lookup_start _ _ _ _ _) (lookup_end _ _ _ _ _) (lookup_timestamp _ _) hsame rfl hle hge' h2).1
    · rw [h2eq] at h2
      exact (rewriteRight_keeps hl hop (lookup_start _ _ _ _ _) (lookup_end _ _ _ _ _) (lookup_timestamp _ _) hsame rfl hle hge' h2).1
  · intro p q ht htags hkeep
    rw [hge, keeps_conjunction] at hkeep ⊢
    simp only [List.mem_map, forall_exists_index, and_imp, forall_apply_eq_imp_iff₂] at hkeep ⊢
    intro r hr
    have h2 := hkeep r hr
    obtain ⟨f, hf, hfr⟩ := rewriteFilters_mem hrs r hr
    obtain ⟨op, o, hcase, hrefs⟩ := rewritten_operand (hrev f hf) hfr
    have hsame : o.eval I (pointEnv m q) = o.eval I (pointEnv m p) := by
      refine eval_congr I o fun n hn => ?_
      obtain ⟨hmem, _, hn2⟩ := hrefTag r hr n (hrefs n hn).1 (hrefs n hn).2
      exact same_tag hn2 hmem ht.symm htags.symm
    have htime : pointEnv m q "timestamp" = pointEnv m p "timestamp" := by
      unfold pointEnv
      rw [lookup_timestamp, lookup_timestamp, ht]
    rcases hcase with ⟨_, h2eq⟩ | ⟨_, c, _, h2eq⟩ <;> rw [h2eq] at h2 ⊢ <;> simp only [Expr.eval, hsame, htime] at h2 ⊢ <;> exact h2

end ModelarDB.Lemmas.FilterOrder
