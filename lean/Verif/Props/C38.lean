import Verif.Lemmas.Aggregates
/-
C38: aggregates that are computed from segments are those of the rows.
-/
namespace ModelarDB.Props
open Model Model.Aggregates Spec Lemmas

/-! ### Rewriting -/

theorem takeWhile_name {f rest : List Char} (h : '(' ∉ f) : functionName (f ++ '(' :: rest) = f := by
  unfold functionName
  induction f with
  | nil => simp
  | cons c f ih =>
    simp only [List.mem_cons, not_or] at h
    rw [List.cons_append, List.takeWhile_cons, if_pos (by simp only [bne_iff_ne]; exact Ne.symm h.1), ih h.2]

theorem functionOf_name {c : Call} (h : '(' ∉ c.function) : modelFunction (functionName c.name) = functionOf c := by
  unfold Call.name
  rw [List.append_assoc, List.cons_append, takeWhile_name h]
  rfl

theorem tryRewriteAggregates_calls : ∀ {calls : List Call} {functions : List ModelFunction},
    (∀ c ∈ calls, '(' ∉ c.function) → tryRewriteAggregates (calls.map .call) = some functions →
    List.Forall₂ (fun c f => functionOf c = some f) calls functions
  | [], functions, _, h => by
    simp only [List.map_nil, tryRewriteAggregates, Option.some.injEq] at h
    subst h
    exact .nil
  | c :: calls, functions, hname, h => by
    rw [List.map_cons, tryRewriteAggregates, show (Aggregate.call c).name = c.name from rfl,
      functionOf_name (hname c (List.mem_cons_self ..))] at h
    split at h
    · rename_i f fs hf hfs
      injection h with h
      subst h
      exact .cons hf (tryRewriteAggregates_calls (fun x hx => hname x (List.mem_cons_of_mem _ hx)) hfs)
    · cases h

/-- What the rule changes: the aggregates of a plan, if its input has one column with values, has no filter and no groups, reads one field
without a filter and each aggregate has the name of one that can be computed from segments. Their input becomes the segments. -/
theorem C38_rewritten (plan plan' : Plan) (h : rewrite plan = some plan') : ∃ node input gridExec parquetOnly functions,
    plan.children = [.aggregate node input] ∧ (input = .sortedJoin [gridExec] ∨ input = .repartition (.sortedJoin [gridExec])) ∧
    gridExec.children.head? = some (.dataSource parquetOnly false) ∧ parquetOnly = true ∧ node.inputSchema = [.value] ∧
    (∀ f ∈ node.filters, f = none) ∧ node.groupBy = [] ∧ tryRewriteAggregates node.aggregates = some functions ∧
    plan'.children = [.aggregate { node with aggregates := functions.map .model } (.dataSource parquetOnly false)] := by
  unfold rewrite at h
  split at h
  · rename_i node child hchildren
    split at h
    · rename_i hcond
      split at h
      · rename_i inputs hinputs
        split at h
        · rename_i input hinput
          injection h with h
          unfold tryNewAggregate at hinput
          split at hinput
          · rename_i gridExec
            split at hinput
            · rename_i source rest hsource
              split at hinput
              · rename_i hcan
                split at hinput
                · rename_i functions hfunctions
                  injection hinput with hinput
                  cases source with
                  | dataSource parquet filtered =>
                    simp only [canRewrite, Bool.and_eq_true, Bool.not_eq_true'] at hcan
                    obtain ⟨rfl, rfl⟩ := hcan
                    refine ⟨node, child, gridExec, true, functions, hchildren, ?_, by rw [hsource]; rfl, rfl, hcond.1, hcond.2.1,
                      hcond.2.2, hfunctions, ?_⟩
                    · cases child <;> simp_all [withoutRepartition]
                    · subst hinput h
                      cases plan <;> simp_all [Plan.children, Plan.withChild]
                  | _ => cases hcan
                · cases hinput
              · cases hinput
            · cases hinput
          · cases hinput
        · cases h
      · cases h
    · cases h
  · cases h

/-! ### The functions -/

theorem produced_values {partitions : List (List Segment)} {times : List Int} {values : List Nat}
    (hread : gridAll partitions.flatten = some (times, values)) (hprod : ∀ s ∈ partitions.flatten, ∃ vs, ProducedFrom s vs) :
    values = partitions.flatten.flatMap valuesOf ∧
    ∀ s ∈ partitions.flatten, segmentLen s.startTime s.endTime s.timestamps = some (valuesOf s).length ∧ valuesOf s ≠ [] := by
  obtain ⟨h1, h2⟩ := gridAll_values hread
  refine ⟨h1, fun s hs => ?_⟩
  obtain ⟨ts, hg⟩ := h2 s hs
  obtain ⟨vs, hp⟩ := hprod s hs
  obtain ⟨k1, k2, _⟩ := produced_length hp hg
  have hlen := (grid_length hg).2
  refine ⟨by rw [hlen]; exact k1, fun hc => ?_⟩
  rw [hc] at hlen
  exact k2 (List.length_eq_zero_iff.mp hlen.symm)

/-- COUNT is the number of rows, for all segments that are stored, in whatever order and however they are distributed. -/
theorem C38_count (partitions : List (List Segment)) (hprod : ∀ s ∈ partitions.flatten, ∃ vs, ProducedFrom s vs) (times : List Int)
    (values : List Nat) (hread : gridAll partitions.flatten = some (times, values)) (hsize : values.length < 2 ^ 63) (tolerance : ℚ) :
    ∃ result, execute .count partitions = some result ∧ Expected tolerance .count (values.map FVal.ofBits32) result := by
  obtain ⟨hv, hl⟩ := produced_values hread hprod
  rw [hv] at hsize
  rw [← sum_lengths] at hsize
  have hstate : ∀ p ∈ partitions, countState 0 p = some (((p.flatMap valuesOf).length : Nat) : Int) := by
    intro p hp
    have hle : (p.flatMap valuesOf).length ≤ (partitions.map fun p => (p.flatMap valuesOf).length).sum :=
      List.le_sum_of_mem (List.mem_map.mpr ⟨p, hp, rfl⟩)
    have := countState_eq p (fun s hs => (hl s (List.mem_flatten_of_mem hp hs)).1) 0 (by omega)
    simpa using this
  refine ⟨_, by rw [execute, mapAll_some hstate], ?_⟩
  have := foldl_count (fun p => (p.flatMap valuesOf).length) partitions 0 (by omega)
  rw [show ((0 : Nat) : Int) = 0 from rfl] at this
  rw [this, sum_lengths, ← hv, Nat.zero_add]
  show Scalar.int _ = Scalar.int _
  rw [List.length_map]

theorem partitions_ne_nil {partitions : List (List Segment)} {values : List Nat} (hv : values = partitions.flatten.flatMap valuesOf)
    (hne : values ≠ []) : partitions ≠ [] := by
  rintro rfl
  exact hne hv

/-- MIN is the minimum of the rows, up to equality of floats, if there are rows, no value is NaN, not all values are infinity and no
segment has a linear model. -/
theorem C38_min_partial (partitions : List (List Segment))
    (hprod : ∀ s ∈ partitions.flatten, s.modelType ≠ .swing ∧ ∃ vs, ProducedFrom s vs ∧ ∀ v ∈ vs, (FVal.ofBits32 v).isNan = false)
    (times : List Int) (values : List Nat) (hread : gridAll partitions.flatten = some (times, values))
    (hnan : ∀ v ∈ values, (FVal.ofBits32 v).isNan = false) (hsome : ∃ v ∈ values, FVal.ofBits32 v ≠ .inf false) (tolerance : ℚ) :
    ∃ result, execute .min partitions = some result ∧ Expected tolerance .min (values.map FVal.ofBits32) result := by
  obtain ⟨hv, hl⟩ := produced_values hread fun s hs => (hprod s hs).2.imp fun _ h => h.1
  obtain ⟨v, hvm, hvi⟩ := hsome
  have hmin : ∀ s ∈ partitions.flatten, MinOf f32Max (FVal.ofBits32 s.minValue) (valuesOf s) := by
    intro s hs
    obtain ⟨hty, vs, hp, hnan'⟩ := hprod s hs
    obtain ⟨ts, ws, hg, h1, _⟩ := produced_extrema hp hnan' hty
    have hne := (hl s hs).2
    rw [valuesOf_eq hg] at hne ⊢
    rcases h1 with ⟨h1, _⟩ | ⟨h1, h2, h3⟩
    · obtain ⟨w, rest, hw⟩ := List.exists_cons_of_ne_nil hne
      have hmem : w ∈ values := by
        rw [hv]
        exact List.mem_flatMap.mpr ⟨s, hs, by rw [valuesOf_eq hg, hw]; simp⟩
      have := h1 w (by rw [hw]; simp)
      rw [hnan w hmem] at this
      cases this
    · exact ⟨h2, .inr ⟨_, h1, rfl⟩, h3⟩
  obtain ⟨m, hm, h1, h2, h3⟩ := mergeMin partitions (partitions_ne_nil hv (List.ne_nil_of_mem hvm))
    fun p hp => minState_minOf p fun s hs => hmin s (List.mem_flatten_of_mem hp hs)
  rw [← hv] at h2 h3
  refine ⟨_, rfl, ?_⟩
  rw [hm]
  have hne : values.map FVal.ofBits32 ≠ [] := by simpa using List.ne_nil_of_mem hvm
  have hgoal : ∃ m', Scalar.f32 m = .f32 m' ∧ (∃ x ∈ values.map FVal.ofBits32, m'.eq x = true) ∧
      ∀ x ∈ values.map FVal.ofBits32, x.lt m' = false := by
    refine ⟨m, rfl, ?_, ?_⟩
    · rcases h2 with rfl | ⟨w, hw, rfl⟩
      · exact ⟨_, List.mem_map.mpr ⟨v, hvm, rfl⟩, eq_of_not_lt h1 (hnan v hvm) (largest_not_lt hvi) (h3 v hvm)⟩
      · exact ⟨_, List.mem_map.mpr ⟨w, hw, rfl⟩, eq_refl h1⟩
    · intro x hx
      obtain ⟨w, hw, rfl⟩ := List.mem_map.mp hx
      exact h3 w hw
  cases hx : values.map FVal.ofBits32 with
  | nil => exact absurd hx hne
  | cons x xs => rw [hx] at hgoal; exact hgoal

/-- MAX is the maximum of the rows, up to equality of floats, if there are rows, no value is NaN, not all values are negative infinity and
no segment has a linear model. -/
theorem C38_max_partial (partitions : List (List Segment))
    (hprod : ∀ s ∈ partitions.flatten, s.modelType ≠ .swing ∧ ∃ vs, ProducedFrom s vs ∧ ∀ v ∈ vs, (FVal.ofBits32 v).isNan = false)
    (times : List Int) (values : List Nat) (hread : gridAll partitions.flatten = some (times, values))
    (hnan : ∀ v ∈ values, (FVal.ofBits32 v).isNan = false) (hsome : ∃ v ∈ values, FVal.ofBits32 v ≠ .inf true) (tolerance : ℚ) :
    ∃ result, execute .max partitions = some result ∧ Expected tolerance .max (values.map FVal.ofBits32) result := by
  obtain ⟨hv, hl⟩ := produced_values hread fun s hs => (hprod s hs).2.imp fun _ h => h.1
  obtain ⟨v, hvm, hvi⟩ := hsome
  have hmax : ∀ s ∈ partitions.flatten, MaxOf f32Min (FVal.ofBits32 s.maxValue) (valuesOf s) := by
    intro s hs
    obtain ⟨hty, vs, hp, hnan'⟩ := hprod s hs
    obtain ⟨ts, ws, hg, _, h1⟩ := produced_extrema hp hnan' hty
    have hne := (hl s hs).2
    rw [valuesOf_eq hg] at hne ⊢
    rcases h1 with ⟨h1, _⟩ | ⟨h1, h2, h3⟩
    · obtain ⟨w, rest, hw⟩ := List.exists_cons_of_ne_nil hne
      have hmem : w ∈ values := by
        rw [hv]
        exact List.mem_flatMap.mpr ⟨s, hs, by rw [valuesOf_eq hg, hw]; simp⟩
      have := h1 w (by rw [hw]; simp)
      rw [hnan w hmem] at this
      cases this
    · exact ⟨h2, .inr ⟨_, h1, rfl⟩, h3⟩
  obtain ⟨m, hm, h1, h2, h3⟩ := mergeMax partitions (partitions_ne_nil hv (List.ne_nil_of_mem hvm))
    fun p hp => maxState_maxOf p fun s hs => hmax s (List.mem_flatten_of_mem hp hs)
  rw [← hv] at h2 h3
  refine ⟨_, rfl, ?_⟩
  rw [hm]
  have hne : values.map FVal.ofBits32 ≠ [] := by simpa using List.ne_nil_of_mem hvm
  have hgoal : ∃ m', Scalar.f32 m = .f32 m' ∧ (∃ x ∈ values.map FVal.ofBits32, m'.eq x = true) ∧
      ∀ x ∈ values.map FVal.ofBits32, m'.lt x = false := by
    refine ⟨m, rfl, ?_, ?_⟩
    · rcases h2 with rfl | ⟨w, hw, rfl⟩
      · exact ⟨_, List.mem_map.mpr ⟨v, hvm, rfl⟩, eq_of_not_lt h1 (hnan v hvm) (h3 v hvm) (smallest_not_lt hvi)⟩
      · exact ⟨_, List.mem_map.mpr ⟨w, hw, rfl⟩, eq_refl h1⟩
    · intro x hx
      obtain ⟨w, hw, rfl⟩ := List.mem_map.mp hx
      exact h3 w hw
  cases hx : values.map FVal.ofBits32 with
  | nil => exact absurd hx hne
  | cons x xs => rw [hx] at hgoal; exact hgoal

/-! ### Sums -/

/-- The tolerance for sums of segments with at most `N` points: the roundings of one binary32 sum of a segment and of the binary64 sum of the
segments. -/
def sumTolerance (N roundings : Nat) : ℚ := (1 + 1 / 2 ^ 24) ^ (N + 3) * (1 + 1 / 2 ^ 53) ^ roundings - 1

theorem total_eq (values : List Nat) : total (values.map FVal.ofBits32) = exactSum values ∧
    totalAbs (values.map FVal.ofBits32) = exactAbsSum values := by
  have : ∀ x, numberOf x = valueOf x := by intro x; cases x <;> rfl
  simp only [total, totalAbs, exactSum, exactAbsSum, List.map_map]
  constructor
  · congr 1
  · congr 1

/-- The segments whose sums are known. -/
theorem produced_sums {partitions : List (List Segment)} {N : Nat} {times : List Int} {values : List Nat}
    (hprod : ∀ s ∈ partitions.flatten, s.modelType ≠ .swing ∧ (∃ vs, ProducedFrom s vs) ∧
      ∀ ts ws, grid s = some (ts, ws) → ws.length ≤ N)
    (hread : gridAll partitions.flatten = some (times, values)) (hfinite : ∀ v ∈ values, (FVal.ofBits32 v).isFinite = true) :
    ∀ s ∈ partitions.flatten, SegmentSums N s := by
  intro s hs
  obtain ⟨hv, h2⟩ := gridAll_values hread
  obtain ⟨hty, ⟨vs, hp⟩, hN⟩ := hprod s hs
  obtain ⟨ts, hg⟩ := h2 s hs
  obtain ⟨hlen, hne, hsize⟩ := produced_length hp hg
  obtain ⟨x, hx, hmag⟩ := segmentSum_some hg hty (produced_xor hp) hlen
  refine ⟨x, hx, hmag, fun hfin => ?_⟩
  obtain ⟨r, hr, he⟩ := segmentSum_sumsTo s hty (produced_xor hp) ts (valuesOf s) hne hg hlen hsize
    (fun w hw => hfinite w (by rw [hv]; exact List.mem_flatMap.mpr ⟨s, hs, hw⟩)) x hx hfin
  refine NearSum.mono ⟨exactSum_abs_le _, r, hr, he⟩ ?_
  exact pow_le_pow_right₀ (by norm_num) (by have := hN ts _ hg; omega)

/-- The merged sum. -/
theorem merged_sum {partitions : List (List Segment)} {N : Nat} {values : List Nat}
    (hsums : ∀ s ∈ partitions.flatten, SegmentSums N s) (hv : values = partitions.flatten.flatMap valuesOf) (hne : values ≠ []) :
    ∃ x, (∃ states, mapAll (sumState (.fin false 0)) partitions = some states ∧ states ≠ [] ∧
        states.foldl (FVal.add f64Fmt) (.fin false 0) = x) ∧ NonnegMag x ∧
      (x.isFinite = true → NearSum (segmentFactor N * (1 + unit64) ^ (1 + partitions.flatten.length + partitions.length)) x
        (exactSum values) (exactAbsSum values)) := by
  have hu := unit64_pos
  have hg := segmentFactor_ge N
  have hstate : ∀ p ∈ partitions, sumState (.fin false 0) p = some ((sumState (.fin false 0) p).getD .nan) := by
    intro p hp
    obtain ⟨x, hx⟩ := sumState_some N p (fun s hs => hsums s (List.mem_flatten_of_mem hp hs)) (.fin false 0)
    rw [hx]; rfl
  have hpn := partitions_ne_nil hv hne
  refine ⟨_, ⟨_, mapAll_some hstate, by simpa using hpn, rfl⟩, ?_, fun hfin => ?_⟩
  · exact nonneg_foldl _ _ (by rintro s q h; injection h with _ h; rw [← h])
  · have := merge_near (g := segmentFactor N * (1 + unit64) ^ (1 + partitions.flatten.length)) (j := 0)
      (one_le_mul_of_one_le_of_one_le hg (one_le_pow₀ (by linarith)))
      (state := fun p => (sumState (.fin false 0) p).getD .nan) partitions (fun p hp hf => ?_) (nearSum_zero _) hfin
    · rw [Nat.zero_add, zero_add, zero_add, mul_assoc, ← pow_add, ← hv] at this
      exact this
    · have := sumState_near N p (fun s hs => hsums s (List.mem_flatten_of_mem hp hs)) (j := 1) (le_refl _) (nearSum_zero _)
        (hstate p hp) hf
      rw [zero_add, zero_add] at this
      refine this.mono (mul_le_mul_of_nonneg_left (pow_le_pow_right₀ (by linarith) ?_) (by linarith))
      have : p.length ≤ partitions.flatten.length := by
        rw [List.length_flatten]
        exact List.le_sum_of_mem (List.mem_map.mpr ⟨p, hp, rfl⟩)
      omega

/-- SUM is the sum of the rows, up to rounding, if there are rows, all values and the result are finite and no segment has a linear model. -/
theorem C38_sum_partial (partitions : List (List Segment)) (N : Nat)
    (hprod : ∀ s ∈ partitions.flatten, s.modelType ≠ .swing ∧ (∃ vs, ProducedFrom s vs) ∧
      ∀ ts ws, grid s = some (ts, ws) → ws.length ≤ N)
    (times : List Int) (values : List Nat) (hread : gridAll partitions.flatten = some (times, values)) (hne : values ≠ [])
    (hfinite : ∀ v ∈ values, (FVal.ofBits32 v).isFinite = true) :
    ∃ x, execute .sum partitions = some (.f64 x) ∧
      (x.isFinite = true → Expected (sumTolerance N (1 + partitions.flatten.length + partitions.length)) .sum (values.map FVal.ofBits32)
        (.f64 x)) := by
  obtain ⟨hv, _⟩ := gridAll_values hread
  obtain ⟨x, ⟨states, h1, h2, h3⟩, _, h4⟩ := merged_sum (produced_sums hprod hread hfinite) hv hne
  obtain ⟨st, rest, rfl⟩ := List.exists_cons_of_ne_nil h2
  refine ⟨x, by rw [execute, h1]; dsimp only; rw [h3], fun hfin => ?_⟩
  obtain ⟨_, r, ⟨⟨s, q, rfl, rfl⟩, _⟩, he⟩ := h4 hfin
  rw [← (total_eq values).1, ← (total_eq values).2, unit64_eq] at he
  have hgoal : ∃ s' q', Scalar.f64 (.fin s q) = .f64 (.fin s' q') ∧ |ratOf s' q' - total (values.map FVal.ofBits32)| ≤
      sumTolerance N (1 + partitions.flatten.length + partitions.length) * totalAbs (values.map FVal.ofBits32) := ⟨s, q, rfl, he⟩
  cases hx : values.map FVal.ofBits32 with
  | nil => exact absurd hx (by simpa using hne)
  | cons y ys => rw [hx] at hgoal; exact hgoal

/-- AVG is the average of the rows, up to rounding, if there are rows but at most `2 ^ 53`, all values and the result are finite and no segment
has a linear model. -/
theorem C38_avg_partial (partitions : List (List Segment)) (N : Nat)
    (hprod : ∀ s ∈ partitions.flatten, s.modelType ≠ .swing ∧ (∃ vs, ProducedFrom s vs) ∧
      ∀ ts ws, grid s = some (ts, ws) → ws.length ≤ N)
    (times : List Int) (values : List Nat) (hread : gridAll partitions.flatten = some (times, values)) (hne : values ≠ [])
    (hsize : values.length ≤ 2 ^ 53) (hfinite : ∀ v ∈ values, (FVal.ofBits32 v).isFinite = true) :
    ∃ x, execute .avg partitions = some (.f64 x) ∧
      (x.isFinite = true → Expected (sumTolerance N (2 + partitions.flatten.length + partitions.length)) .avg (values.map FVal.ofBits32)
        (.f64 x)) := by
  obtain ⟨hv, hl⟩ := produced_values hread fun s hs => (hprod s hs).2.1
  obtain ⟨x, ⟨states, h1, h2, h3⟩, hmag, h4⟩ := merged_sum (produced_sums hprod hread hfinite) hv hne
  obtain ⟨st, rest, rfl⟩ := List.exists_cons_of_ne_nil h2
  have hsize' : 0 + (partitions.map fun p => (p.flatMap valuesOf).length).sum < 2 ^ 63 := by
    rw [sum_lengths, ← hv]; omega
  have hstate : ∀ p ∈ partitions, avgCountState 0 p = some (p.flatMap valuesOf).length := by
    intro p hp
    have hle : (p.flatMap valuesOf).length ≤ (partitions.map fun p => (p.flatMap valuesOf).length).sum :=
      List.le_sum_of_mem (List.mem_map.mpr ⟨p, hp, rfl⟩)
    have := avgCountState_eq p (fun s hs => (hl s (List.mem_flatten_of_mem hp hs)).1) 0 (by omega)
    simpa using this
  have hcount := foldl_avgCount (fun p => (p.flatMap valuesOf).length) partitions 0 hsize'
  rw [sum_lengths, ← hv, Nat.zero_add] at hcount
  refine ⟨_, by rw [execute, h1, mapAll_some hstate], fun hfin => ?_⟩
  rw [hcount, h3] at hfin ⊢
  have hpos : 0 < values.length := List.length_pos_iff.mpr hne
  obtain ⟨hofInt, hdiv⟩ : FVal.ofInt f64Fmt (values.length : Int) = .fin false values.length ∧ True := by
    refine ⟨?_, trivial⟩
    exact ofInt64_exact hpos hsize
  rw [hofInt] at hfin ⊢
  have hxf : x.isFinite = true := by
    cases x with
    | nan => cases hfin
    | inf s => cases hfin
    | fin s q => rfl
  obtain ⟨hP, r, hr, he⟩ := h4 hxf
  obtain ⟨s, q, hres, hq⟩ := div64_near hr hmag hpos hsize hfin
  have hA : 0 ≤ exactAbsSum values := exactAbsSum_nonneg values
  have hn : (0 : ℚ) < values.length := by exact_mod_cast hpos
  have hstep : |ratOf s q - exactSum values / values.length| ≤
      (segmentFactor N * (1 + unit64) ^ (1 + partitions.flatten.length + partitions.length) * (1 + unit64) - 1) *
        (exactAbsSum values / values.length) := by
    refine near_step (p := r / values.length) ?_ ?_ hq
    · rw [_root_.abs_div, abs_of_pos hn]
      exact div_le_div_of_nonneg_right hP hn.le
    · rw [← sub_div, _root_.abs_div, abs_of_pos hn, ← mul_div_assoc]
      exact div_le_div_of_nonneg_right he hn.le
  rw [mul_assoc, ← pow_succ, ← (total_eq values).1, ← (total_eq values).2, unit64_eq,
    show 1 + partitions.flatten.length + partitions.length + 1 = 2 + partitions.flatten.length + partitions.length by omega] at hstep
  rw [hres]
  have hgoal : ∃ s' q', Scalar.f64 (.fin s q) = .f64 (.fin s' q') ∧
      |ratOf s' q' - total (values.map FVal.ofBits32) / (values.map FVal.ofBits32).length| ≤
      sumTolerance N (2 + partitions.flatten.length + partitions.length) *
        (totalAbs (values.map FVal.ofBits32) / (values.map FVal.ofBits32).length) := by
    rw [List.length_map]
    exact ⟨s, q, rfl, hstep⟩
  cases hx : values.map FVal.ofBits32 with
  | nil => exact absurd hx (by simpa using hne)
  | cons y ys => rw [hx] at hgoal; exact hgoal

/-! ### Queries -/

theorem sumTolerance_mono {N m n : Nat} (h : m ≤ n) : sumTolerance N m ≤ sumTolerance N n := by
  unfold sumTolerance
  have h1 : (0 : ℚ) ≤ (1 + 1 / 2 ^ 24) ^ (N + 3) := by positivity
  have h2 : (1 + 1 / 2 ^ 53 : ℚ) ^ m ≤ (1 + 1 / 2 ^ 53) ^ n := pow_le_pow_right₀ (by norm_num) h
  linarith [mul_le_mul_of_nonneg_left h2 h1]

theorem Expected_mono {a b : ℚ} (h : a ≤ b) {xs : List FVal} {r : Scalar} (he : Expected a .sum xs r) : Expected b .sum xs r := by
  cases xs with
  | nil => exact he
  | cons x xs =>
    obtain ⟨s, q, h1, h2⟩ := he
    refine ⟨s, q, h1, h2.trans (mul_le_mul_of_nonneg_right h ?_)⟩
    exact List.sum_nonneg (by intro y hy; obtain ⟨z, _, rfl⟩ := List.mem_map.mp hy; exact abs_nonneg _)

theorem mapAll_forall₂ {α β γ : Type} {R : α → γ → Prop} {S : α → β → Prop} {g : β → Option γ} {as : List α} {bs : List β}
    (h : List.Forall₂ S as bs) (hg : ∀ a ∈ as, ∀ b, S a b → ∃ c, g b = some c ∧ R a c) :
    ∃ cs, mapAll g bs = some cs ∧ List.Forall₂ R as cs := by
  induction h with
  | nil => exact ⟨[], rfl, .nil⟩
  | cons hab _ ih =>
    obtain ⟨c, hc, hr⟩ := hg _ (List.mem_cons_self ..) _ hab
    obtain ⟨cs, hcs, hrs⟩ := ih fun a ha => hg a (List.mem_cons_of_mem _ ha)
    exact ⟨c :: cs, by rw [mapAll, hc, hcs], .cons hr hrs⟩

/-- A query that is rewritten returns for each aggregate what the rows give, unless a sum or an average is not finite: if each aggregate is
one of the column itself, the plan has a partial and a final aggregate, there are rows but at most `2 ^ 53`, all values are finite and no
segment has a linear model. -/
theorem C38_query_partial (plan plan' : Plan) (node : AggregateNode) (input : Plan) (calls : List Call) (partitions : List (List Segment))
    (N : Nat) (times : List Int) (values : List Nat) (hrewrite : rewrite plan = some plan') (hchildren : plan.children = [.aggregate node input])
    (hcalls : node.aggregates = calls.map .call) (hargument : ∀ c ∈ calls, c.argument = .column ∧ '(' ∉ c.function)
    (hmode : node.mode = .partial_)
    (hprod : ∀ s ∈ partitions.flatten, s.modelType ≠ .swing ∧
      (∃ vs, ProducedFrom s vs ∧ ∀ v ∈ vs, (FVal.ofBits32 v).isNan = false) ∧ ∀ ts ws, grid s = some (ts, ws) → ws.length ≤ N)
    (hread : gridAll partitions.flatten = some (times, values)) (hne : values ≠ []) (hsize : values.length ≤ 2 ^ 53)
    (hfinite : ∀ v ∈ values, (FVal.ofBits32 v).isFinite = true) :
    ∃ functions results,
      plan'.children = [.aggregate { node with aggregates := functions.map .model } (.dataSource true false)] ∧
      executeNode node functions partitions = some results ∧
      List.Forall₂ (fun c r => (∃ x, r = .f64 x ∧ x.isFinite = false) ∨
        ExpectedCall (sumTolerance N (2 + partitions.flatten.length + partitions.length)) c values r) calls results := by
  obtain ⟨node', input', gridExec, parquetOnly, functions, h1, _, _, rfl, _, _, _, h8, h9⟩ := C38_rewritten plan plan' hrewrite
  rw [hchildren] at h1
  injection h1 with h1
  injection h1 with h1 h1'
  subst h1 h1'
  rw [hcalls] at h8
  have hf := tryRewriteAggregates_calls (fun c hc => (hargument c hc).2) h8
  have hvalues : ∀ c ∈ calls, (values.map fun v => c.argument.eval (FVal.ofBits32 v)) = values.map FVal.ofBits32 := by
    intro c hc
    rw [(hargument c hc).1]
    rfl
  have hnan : ∀ v ∈ values, (FVal.ofBits32 v).isNan = false := by
    intro v hv
    have := hfinite v hv
    cases h : FVal.ofBits32 v <;> simp_all [FVal.isFinite, FVal.isNan]
  have hsome : ∀ b, ∃ v ∈ values, FVal.ofBits32 v ≠ .inf b := by
    intro b
    obtain ⟨v, rest, rfl⟩ := List.exists_cons_of_ne_nil hne
    refine ⟨v, List.mem_cons_self .., fun h => ?_⟩
    have := hfinite v (List.mem_cons_self ..)
    rw [h] at this
    cases this
  have hp1 : ∀ s ∈ partitions.flatten, ∃ vs, ProducedFrom s vs := fun s hs => (hprod s hs).2.1.imp fun _ h => h.1
  have hp2 : ∀ s ∈ partitions.flatten, s.modelType ≠ .swing ∧ ∃ vs, ProducedFrom s vs ∧ ∀ v ∈ vs, (FVal.ofBits32 v).isNan = false :=
    fun s hs => ⟨(hprod s hs).1, (hprod s hs).2.1⟩
  have hp3 : ∀ s ∈ partitions.flatten, s.modelType ≠ .swing ∧ (∃ vs, ProducedFrom s vs) ∧
      ∀ ts ws, grid s = some (ts, ws) → ws.length ≤ N := fun s hs => ⟨(hprod s hs).1, hp1 s hs, (hprod s hs).2.2⟩
  obtain ⟨results, hr1, hr2⟩ := mapAll_forall₂ (g := fun f => execute f partitions)
    (R := fun c r => (∃ x, r = .f64 x ∧ x.isFinite = false) ∨
        ExpectedCall (sumTolerance N (2 + partitions.flatten.length + partitions.length)) c values r) hf (by
    intro c hc f hcf
    unfold ExpectedCall
    rw [hvalues c hc]
    cases f with
    | count =>
      obtain ⟨r, k1, k2⟩ := C38_count partitions hp1 times values hread (by omega) (sumTolerance N _)
      exact ⟨r, k1, .inr ⟨_, hcf, k2⟩⟩
    | min =>
      obtain ⟨r, k1, k2⟩ := C38_min_partial partitions hp2 times values hread hnan (hsome false) (sumTolerance N _)
      exact ⟨r, k1, .inr ⟨_, hcf, k2⟩⟩
    | max =>
      obtain ⟨r, k1, k2⟩ := C38_max_partial partitions hp2 times values hread hnan (hsome true) (sumTolerance N _)
      exact ⟨r, k1, .inr ⟨_, hcf, k2⟩⟩
    | sum =>
      obtain ⟨x, k1, k2⟩ := C38_sum_partial partitions N hp3 times values hread hne hfinite
      cases hx : x.isFinite with
      | false => exact ⟨_, k1, .inl ⟨x, rfl, hx⟩⟩
      | true => exact ⟨_, k1, .inr ⟨_, hcf, Expected_mono (sumTolerance_mono (by omega)) (k2 hx)⟩⟩
    | avg =>
      obtain ⟨x, k1, k2⟩ := C38_avg_partial partitions N hp3 times values hread hne hsize hfinite
      cases hx : x.isFinite with
      | false => exact ⟨_, k1, .inl ⟨x, rfl, hx⟩⟩
      | true => exact ⟨_, k1, .inr ⟨_, hcf, k2 hx⟩⟩)
  exact ⟨functions, results, h9, by rw [executeNode, hmode]; exact hr1, hr2⟩

/-! ### Cases that meet the hypotheses, and where the property is false -/

/-- A query with the aggregates `calls` of a field. -/
def exampleNode (mode : Mode) (calls : List Call) : AggregateNode := ⟨mode, [], calls.map .call, calls.map fun _ => none, [.value]⟩

/-- The plan of such a query. -/
def examplePlan (mode : Mode) (calls : List Call) : Plan :=
  .other [.aggregate (exampleNode mode calls) (.repartition (.sortedJoin [.grid (.dataSource true false)]))]

/-- The plan after the rule. -/
def exampleRewritten (mode : Mode) (calls : List Call) (functions : List ModelFunction) : Plan :=
  .other [.aggregate { exampleNode mode calls with aggregates := functions.map .model } (.dataSource true false)]

def exampleCalls : List Call :=
  [⟨"count".toList, .column⟩, ⟨"min".toList, .column⟩, ⟨"max".toList, .column⟩, ⟨"sum".toList, .column⟩, ⟨"avg".toList, .column⟩]

def exampleValues : List Nat := List.replicate 8 0x3f800000 ++ [0x40a00000, 0x40400000]

theorem constantSegment_produced : ProducedFrom constantSegment exampleValues :=
  ⟨exactLog2, .lossless, [0, 1, 2, 3, 4, 5, 6, 7, 8, 9], [constantSegment], .inl rfl, by decide +kernel, by decide +kernel, by decide +kernel,
    by unfold StrictlyIncreasing; decide +kernel, by decide +kernel, by decide +kernel, by decide +kernel, by decide +kernel⟩

/-- Eight times `1`, `5` and `3`, twice, in two partitions. -/
example : rewrite (examplePlan .partial_ exampleCalls) = some (exampleRewritten .partial_ exampleCalls [.count, .min, .max, .sum, .avg]) ∧
    constantSegment.modelType ≠ .swing ∧ ProducedFrom constantSegment exampleValues ∧
    (∀ v ∈ exampleValues, (FVal.ofBits32 v).isFinite = true) ∧
    gridAll [[constantSegment], [constantSegment]].flatten =
      some ([0, 1, 2, 3, 4, 5, 6, 7, 8, 9, 0, 1, 2, 3, 4, 5, 6, 7, 8, 9], exampleValues ++ exampleValues) ∧
    executeNode (exampleNode .partial_ exampleCalls) [.count, .min, .max, .sum, .avg] [[constantSegment], [constantSegment]] =
      some [.int 20, .f32 (.fin false 1), .f32 (.fin false 5), .f64 (.fin false 32), .f64 (.fin false (3602879701896397 / 2251799813685248))] := by
  refine ⟨?_, by decide +kernel, constantSegment_produced, by decide +kernel, by decide +kernel, ?_⟩
  · rfl
  · decide +kernel

/-- **C38** is false of the code if the argument is not the column itself: the rule looks at the name of the function only and
`SUM(f * 2)` returns `SUM(f)`. -/
theorem C38_expression_ignored : ∃ calls functions,
    rewrite (examplePlan .partial_ calls) = some (exampleRewritten .partial_ calls functions) ∧
    ∃ c r, calls = [c] ∧ executeNode (exampleNode .partial_ calls) functions [[constantSegment]] = some [r] ∧
      ∀ tolerance, tolerance < 1 / 2 → ¬ ExpectedCall tolerance c exampleValues r := by
  refine ⟨[⟨"sum".toList, .times .column (.literal 2)⟩], [.sum], rfl, _, .f64 (.fin false 16), rfl, by decide +kernel, ?_⟩
  rintro tolerance ht ⟨f, hf, he⟩
  have : f = .sum := Option.some.inj (hf.symm.trans (by decide +kernel))
  subst this
  have h1 : total (exampleValues.map fun v => Argument.eval (.times .column (.literal 2)) (FVal.ofBits32 v)) = 32 := by decide +kernel
  have h2 : totalAbs (exampleValues.map fun v => Argument.eval (.times .column (.literal 2)) (FVal.ofBits32 v)) = 32 := by decide +kernel
  have : ∃ s q, Scalar.f64 (.fin false 16) = .f64 (.fin s q) ∧ |ratOf s q - 32| ≤ tolerance * 32 := by
    obtain ⟨s, q, h, hle⟩ := he
    have hle' : |ratOf s q - total (exampleValues.map fun v => Argument.eval (.times .column (.literal 2)) (FVal.ofBits32 v))| ≤
      tolerance * totalAbs (exampleValues.map fun v => Argument.eval (.times .column (.literal 2)) (FVal.ofBits32 v)) := hle
    rw [h1, h2] at hle'
    exact ⟨s, q, h, hle'⟩
  obtain ⟨s, q, h, hle⟩ := this
  injection h with h
  injection h with hs hq
  subst hs hq
  norm_num [ratOf, abs_of_neg] at hle
  linarith

/-- **C38** is false of the code for a table without rows, which is one empty partition: the aggregates are numbers instead of null. -/
theorem C38_empty_table : gridAll [([] : List Segment)].flatten = some ([], []) ∧
    execute .min [[]] = some (.f32 f32Max) ∧ execute .max [[]] = some (.f32 f32Min) ∧ execute .sum [[]] = some (.f64 (.fin false 0)) ∧
    execute .avg [[]] = some (.f64 .nan) ∧
    ∀ tolerance f r, f ≠ .count → execute f [[]] = some r → ¬ Expected tolerance f [] r := by
  refine ⟨by decide +kernel, by decide +kernel, by decide +kernel, by decide +kernel, by decide +kernel, fun tolerance f r hf h => ?_⟩
  have hn : execute f [[]] ≠ some .null := by cases f <;> decide +kernel
  have : Expected tolerance f [] r → r = .null := by cases f <;> first | exact absurd rfl hf | exact id
  intro he
  exact hn (h.trans (congrArg _ (this he)))

private theorem min_not_inf {m x : FVal} (h : m ≠ .inf false ∧ m.isNan = false) :
    m.min x ≠ .inf false ∧ (m.min x).isNan = false := by
  obtain ⟨h1, h2⟩ := h
  unfold FVal.min
  rw [h2]
  simp only [Bool.false_eq_true, if_false]
  split
  · exact ⟨h1, h2⟩
  · next hn =>
    split
    · next hl =>
      refine ⟨?_, by simpa using hn⟩
      rintro rfl
      cases m <;> simp [FVal.lt] at hl
    · exact ⟨h1, h2⟩

private theorem max_not_inf {m x : FVal} (h : m ≠ .inf true ∧ m.isNan = false) :
    m.max x ≠ .inf true ∧ (m.max x).isNan = false := by
  obtain ⟨h1, h2⟩ := h
  unfold FVal.max
  rw [h2]
  simp only [Bool.false_eq_true, if_false]
  split
  · exact ⟨h1, h2⟩
  · next hn =>
    split
    · next hl =>
      refine ⟨?_, by simpa using hn⟩
      rintro rfl
      cases m <;> simp [FVal.lt] at hl
    · exact ⟨h1, h2⟩

private theorem foldl_keeps {β : Type} {P : FVal → Prop} {f : FVal → β → FVal} (hf : ∀ m x, P m → P (f m x)) :
    ∀ (l : List β) (m : FVal), P m → P (l.foldl f m)
  | [], _, h => h
  | x :: l, m, h => foldl_keeps hf l (f m x) (hf m x h)

/-- **C38** is false of the code for all tables in which all values are infinity: MIN is never infinity, whatever the segments are. -/
theorem C38_min_infinity_all (partitions : List (List Segment)) (values : List Nat) (hne : values ≠ [])
    (hall : ∀ v ∈ values, FVal.ofBits32 v = .inf false) (tolerance : ℚ) (result : Scalar) (h : execute .min partitions = some result) :
    ¬ Expected tolerance .min (values.map FVal.ofBits32) result := by
  intro he
  obtain ⟨v, vs, rfl⟩ := List.exists_cons_of_ne_nil hne
  obtain ⟨m, rfl, ⟨x, hx, hm⟩, _⟩ := he
  obtain ⟨w, hw, rfl⟩ := List.mem_map.mp hx
  rw [hall w hw] at hm
  have hmi : m = .inf false := by
    cases m with
    | nan => cases hm
    | inf s => cases s <;> first | rfl | cases hm
    | fin s q => cases hm
  subst hmi
  cases partitions with
  | nil => cases h
  | cons p ps =>
    simp only [execute, List.map_cons, mergeWith, Option.some.injEq, Scalar.f32.injEq] at h
    have hs : ∀ m x, (m ≠ FVal.inf false ∧ m.isNan = false) → (m.min x ≠ .inf false ∧ (m.min x).isNan = false) :=
      fun _ _ h => min_not_inf h
    exact (foldl_keeps hs _ _ (foldl_keeps (fun m s h => hs m (FVal.ofBits32 s.minValue) h) p f32Max ⟨nofun, rfl⟩)).1 h

/-- **C38** is false of the code for all tables in which all values are negative infinity: MAX is never negative infinity, whatever the
segments are. -/
theorem C38_max_infinity_all (partitions : List (List Segment)) (values : List Nat) (hne : values ≠ [])
    (hall : ∀ v ∈ values, FVal.ofBits32 v = .inf true) (tolerance : ℚ) (result : Scalar) (h : execute .max partitions = some result) :
    ¬ Expected tolerance .max (values.map FVal.ofBits32) result := by
  intro he
  obtain ⟨v, vs, rfl⟩ := List.exists_cons_of_ne_nil hne
  obtain ⟨m, rfl, ⟨x, hx, hm⟩, _⟩ := he
  obtain ⟨w, hw, rfl⟩ := List.mem_map.mp hx
  rw [hall w hw] at hm
  have hmi : m = .inf true := by
    cases m with
    | nan => cases hm
    | inf s => cases s <;> first | rfl | cases hm
    | fin s q => cases hm
  subst hmi
  cases partitions with
  | nil => cases h
  | cons p ps =>
    simp only [execute, List.map_cons, mergeWith, Option.some.injEq, Scalar.f32.injEq] at h
    have hs : ∀ m x, (m ≠ FVal.inf true ∧ m.isNan = false) → (m.max x ≠ .inf true ∧ (m.max x).isNan = false) :=
      fun _ _ h => max_not_inf h
    exact (foldl_keeps hs _ _ (foldl_keeps (fun m s h => hs m (FVal.ofBits32 s.maxValue) h) p f32Min ⟨nofun, rfl⟩)).1 h

/-- MIN, exactly: if there are rows, no value is NaN and no segment has a linear model, MIN is correct exactly if not all values are infinity. -/
theorem C38_min_iff (partitions : List (List Segment))
    (hprod : ∀ s ∈ partitions.flatten, s.modelType ≠ .swing ∧ ∃ vs, ProducedFrom s vs ∧ ∀ v ∈ vs, (FVal.ofBits32 v).isNan = false)
    (times : List Int) (values : List Nat) (hread : gridAll partitions.flatten = some (times, values)) (hne : values ≠ [])
    (hnan : ∀ v ∈ values, (FVal.ofBits32 v).isNan = false) (tolerance : ℚ) :
    (∃ result, execute .min partitions = some result ∧ Expected tolerance .min (values.map FVal.ofBits32) result) ↔
      ∃ v ∈ values, FVal.ofBits32 v ≠ .inf false := by
  constructor
  · rintro ⟨result, h1, h2⟩
    by_contra hc
    push Not at hc
    exact C38_min_infinity_all partitions values hne hc tolerance result h1 h2
  · exact fun h => C38_min_partial partitions hprod times values hread hnan h tolerance

/-- MAX, exactly: if there are rows, no value is NaN and no segment has a linear model, MAX is correct exactly if not all values are negative
infinity. -/
theorem C38_max_iff (partitions : List (List Segment))
    (hprod : ∀ s ∈ partitions.flatten, s.modelType ≠ .swing ∧ ∃ vs, ProducedFrom s vs ∧ ∀ v ∈ vs, (FVal.ofBits32 v).isNan = false)
    (times : List Int) (values : List Nat) (hread : gridAll partitions.flatten = some (times, values)) (hne : values ≠ [])
    (hnan : ∀ v ∈ values, (FVal.ofBits32 v).isNan = false) (tolerance : ℚ) :
    (∃ result, execute .max partitions = some result ∧ Expected tolerance .max (values.map FVal.ofBits32) result) ↔
      ∃ v ∈ values, FVal.ofBits32 v ≠ .inf true := by
  constructor
  · rintro ⟨result, h1, h2⟩
    by_contra hc
    push Not at hc
    exact C38_max_infinity_all partitions values hne hc tolerance result h1 h2
  · exact fun h => C38_max_partial partitions hprod times values hread hnan h tolerance

private theorem mapAll_cons_ne {α β : Type} {f : α → Option β} {x : α} {xs : List α} (h : mapAll f (x :: xs) = some []) : False := by
  unfold mapAll at h
  split at h <;> cases h

/-- **C38** is false of the code for a table without rows however many partitions it is read in: no aggregate except COUNT is ever null. -/
theorem C38_empty_all (partitions : List (List Segment)) (hne : partitions ≠ []) (f : ModelFunction) (hf : f ≠ .count) (tolerance : ℚ)
    (result : Scalar) (h : execute f partitions = some result) : ¬ Expected tolerance f [] result := by
  obtain ⟨p, ps, rfl⟩ := List.exists_cons_of_ne_nil hne
  have hn : Expected tolerance f [] result → result = .null := by cases f <;> first | exact absurd rfl hf | exact id
  intro he
  rw [hn he] at h
  cases f with
  | count => exact hf rfl
  | min => simp [execute, mergeWith] at h
  | max => simp [execute, mergeWith] at h
  | sum =>
    simp only [execute] at h
    split at h
    · cases h
    · next hs => exact mapAll_cons_ne hs
    · cases h
  | avg =>
    simp only [execute] at h
    split at h
    · next hs _ => exact mapAll_cons_ne hs
    · cases h
    · cases h

/-- Two times infinity. -/
def infinitySegment : Segment := ⟨.macaqueV, 0, 1, [], 0x7f800000, 0x7f800000, [127, 128, 0, 0, 128], []⟩

example : ¬ Expected 1 .min ([0x7f800000, 0x7f800000].map FVal.ofBits32) (.f32 f32Max) :=
  C38_min_infinity_all [[infinitySegment]] _ (by decide) (by decide +kernel) 1 _ (by decide +kernel)

/-- **C38** is false of the code if all values are infinity: MIN is the largest finite number. -/
theorem C38_min_infinity :
    tryCompressUnivariate exactLog2 .lossless [0, 1] [0x7f800000, 0x7f800000] = .segments [infinitySegment] ∧
    grid infinitySegment = some ([0, 1], [0x7f800000, 0x7f800000]) ∧ execute .min [[infinitySegment]] = some (.f32 f32Max) ∧
    ∀ tolerance, ¬ Expected tolerance .min [.inf false, .inf false] (.f32 f32Max) := by
  refine ⟨by decide +kernel, by decide +kernel, by decide +kernel, ?_⟩
  rintro tolerance ⟨m, hm, ⟨x, hx, he⟩, _⟩
  injection hm with hm
  subst hm
  simp only [List.mem_cons, List.not_mem_nil, or_false, or_self] at hx
  subst hx
  cases he

/-- Two values near the largest finite number. -/
def largeSegment : Segment := ⟨.macaqueV, 0, 1, [], 0x7f000000, 0x7f000000, [127, 0, 0, 0, 128], []⟩

/-- **C38** is false of the code if the sum of one segment is too large for binary32: the sum is infinity although the sum of the rows, which
is computed in binary64, is finite. -/
theorem C38_sum_overflow :
    tryCompressUnivariate exactLog2 .lossless [0, 1] [0x7f000000, 0x7f000000] = .segments [largeSegment] ∧
    grid largeSegment = some ([0, 1], [0x7f000000, 0x7f000000]) ∧ execute .sum [[largeSegment]] = some (.f64 (.inf false)) ∧
    ∀ tolerance, ¬ Expected tolerance .sum ([0x7f000000, 0x7f000000].map FVal.ofBits32) (.f64 (.inf false)) := by
  refine ⟨by decide +kernel, by decide +kernel, by decide +kernel, ?_⟩
  rintro tolerance ⟨s, q, h, _⟩
  injection h with h
  cases h

/-- **C38** is false of the code for linear models with residuals at irregular timestamps, see `C12_sum_linear_wrong`. -/
theorem C38_sum_linear_wrong : (∃ ts ws, gridAll [[irregularSegment]].flatten = some (ts, ws) ∧ total (ws.map FVal.ofBits32) = 51 ∧
      totalAbs (ws.map FVal.ofBits32) = 51) ∧
    ∃ s q, execute .sum [[irregularSegment]] = some (.f64 (.fin s q)) ∧ ratOf s q < 6 := by
  refine ⟨⟨[0, 1, 2, 3, 4, 5, 6, 7, 8, 10, 1000],
    [0, 0x3f800000, 0x40000000, 0x40400000, 0x40800000, 0x40a00000, 0x40c00000, 0x40e00000, 0x41000000, 0x41200000,
        0x40a00000], by decide +kernel, by decide +kernel, by decide +kernel⟩, false, 5725225 / 1048576, by decide +kernel, by decide +kernel⟩

/-- If Apache DataFusion plans one aggregate instead of a partial and a final one, the query is rewritten too and the server aborts. -/
theorem C38_single_mode_aborts (mode : Mode) (hmode : mode ≠ .partial_) (partitions : List (List Segment)) :
    rewrite (examplePlan mode exampleCalls) = some (exampleRewritten mode exampleCalls [.count, .min, .max, .sum, .avg]) ∧
    executeNode (exampleNode mode exampleCalls) [.count, .min, .max, .sum, .avg] partitions = none := by
  refine ⟨rfl, ?_⟩
  cases mode <;> first | exact absurd rfl hmode | rfl

end ModelarDB.Props
