import Verif.Lemmas.Sum64
import Verif.Props.C12
import Verif.Props.C13
import Verif.Spec.Aggregates
/-
Aggregates of segments.
-/
namespace ModelarDB.Lemmas
open Model Model.Aggregates Spec Props

/-! ### Segments -/

theorem macaqueVGrid_length {values : List Nat} {n : Nat} {last : Option Nat} {l : List Nat} (h : macaqueVGrid values n last = some l) :
    l.length = n := by
  unfold macaqueVGrid at h
  split at h
  · cases h
  · split at h
    · exact (run_runSum n _ (.fin false 0) h).2
    · split at h
      · cases h
      · split at h
        · cases h
        · split at h
          · cases h
          · rename_i hrun
            injection h with h
            subst h
            simp [(run_runSum _ _ (.fin false 0) hrun).2]

theorem modelValues_length {s : Segment} {ts : List Int} {l : List Nat} (h : s.modelValues ts = some l) : l.length = ts.length := by
  unfold Segment.modelValues at h
  split at h
  · split at h
    · cases h
    · injection h with h; subst h; simp [pmcMeanGrid]
  · split at h
    · injection h with h; subst h; simp [swingGrid]
    · cases h
  · exact macaqueVGrid_length h

/-- Reading a segment gives as many values as timestamps, which are those that are stored. -/
theorem grid_length {s : Segment} {ts : List Int} {ws : List Nat} (h : grid s = some (ts, ws)) :
    decompressAllTimestamps s.startTime s.endTime s.timestamps = some ts ∧ ws.length = ts.length := by
  unfold grid at h
  split at h
  · cases h
  · rename_i ts' hts
    split at h
    · cases h
    · dsimp only at h
      split at h
      · cases h
      · rename_i mv hmv
        have hl := modelValues_length hmv
        rw [List.length_take] at hl
        split at h
        · rename_i hr
          simp only [Option.some.injEq, Prod.mk.injEq] at h
          obtain ⟨rfl, rfl⟩ := h
          have : residualsLength s.residuals = 0 := by rw [List.isEmpty_iff.mp hr]; rfl
          exact ⟨hts, by omega⟩
        · split at h
          · cases h
          · split at h
            · cases h
            · rename_i rv hrv
              have := macaqueVGrid_length hrv
              simp only [Option.some.injEq, Prod.mk.injEq] at h
              obtain ⟨rfl, rfl⟩ := h
              refine ⟨hts, ?_⟩
              rw [List.length_append, this, hl, List.length_drop]
              omega

theorem produced_piece {s : Segment} {vs : List Nat} (h : ProducedFrom s vs) : ∃ (log2 : Log2) (eb : ErrorBound) (ts : List Int) (a b : Nat),
    IsPiece log2 (fun i => fitNextModel i eb ts vs) eb ts vs s a b ∧ (∀ t ∈ ts, IsI64 t) ∧ StrictlyIncreasing ts ∧ ts.length < 2 ^ 63 ∧
      ts.length = vs.length := by
  obtain ⟨log2, eb, ts, segments, _, hlen, hne, hrange, hinc, hsize, _, hseg, hs⟩ := h
  obtain ⟨segments', hseg', hchain⟩ := tryCompressWith_chain (log2 := log2) (eb := eb) (goodFit_fitNextModel eb ts vs hlen) hne hlen
  have hsame : segments = segments' := by
    have := hseg.symm.trans hseg'
    injection this
  subst hsame
  obtain ⟨a, b, hp⟩ := chain_mem hchain hs
  exact ⟨log2, eb, ts, a, b, hp, hrange, hinc, hsize, hlen⟩

/-- The length of a segment is the number of points that reading it gives. -/
theorem produced_length {s : Segment} {vs : List Nat} (h : ProducedFrom s vs) {ts : List Int} {ws : List Nat} (hg : grid s = some (ts, ws)) :
    segmentLen s.startTime s.endTime s.timestamps = some ts.length ∧ ts ≠ [] ∧ ts.length < 2 ^ 63 := by
  obtain ⟨log2, eb, ts', a, b, hp, hrange, hinc, hsize, hlen⟩ := produced_piece h
  obtain ⟨hab, hb, h1, h2, h3⟩ := piece_times (goodFit_fitNextModel eb ts' vs hlen) hp
  obtain ⟨k1, k2⟩ := slice_timestamps hrange hinc hsize hab hb
  have := (grid_length hg).1
  rw [h1, h2, h3, k1] at this
  injection this with this
  subst this
  rw [h1, h2, h3]
  exact ⟨k2, sliceIncl_ne_nil ts' hab hb, lt_of_le_of_lt (sliceIncl_sublist ts' a b).length_le hsize⟩

theorem produced_xor {s : Segment} {vs : List Nat} (h : ProducedFrom s vs) : s.modelType = .macaqueV → s.residuals = [] := by
  obtain ⟨log2, eb, ts, a, b, hp, hrange, hinc, hsize, hlen⟩ := produced_piece h
  intro hm
  rcases hp with ⟨ha, hab, hres, hb, h, hkept⟩ | ⟨hab, hb, h⟩
  · rcases finish_fields h with ⟨_, _, _, _, _, h⟩ | ⟨_, h1, r, _, _, _, _, h2⟩
    · exact h
    · rw [h1] at hm
      rcases h2 with ⟨h2, _⟩ | ⟨h2, _⟩ <;> rw [h2] at hm <;> cases hm
  · unfold compressResidualsInSeparateSegment at h
    split at h
    · injection h with h; subst h; rfl
    · cases h

theorem produced_extrema {s : Segment} {vs : List Nat} (h : ProducedFrom s vs) (hnonan : ∀ v ∈ vs, (FVal.ofBits32 v).isNan = false)
    (hty : s.modelType ≠ .swing) : ∃ ts ws, grid s = some (ts, ws) ∧ IsMinimum s.minValue ws ∧ IsMaximum s.maxValue ws := by
  obtain ⟨log2, eb, ts, segments, hv, hlen, hne, hrange, hinc, hsize, h32, hseg, hs⟩ := h
  obtain ⟨segments', hseg', hall⟩ := C13_min_max_partial log2 eb hv ts vs hlen hne hrange hinc hsize h32 hnonan
  have hsame : segments = segments' := by
    have := hseg.symm.trans hseg'
    injection this
  subst hsame
  exact hall s hs hty

theorem macaqueVSum_some {values : List Nat} {n : Nat} {last : Option Nat} {l : List Nat} (h : macaqueVGrid values n last = some l) :
    ∃ x, macaqueVSum n values last = some x ∧ NonnegMag x := by
  have hfold : ∀ (ws : List Nat) (acc : FVal), NonnegMag acc → NonnegMag (foldAdd acc ws) := by
    intro ws
    induction ws with
    | nil => exact fun acc h => h
    | cons w ws ih => exact fun acc h => ih _ (nonneg_add _ _ h (nonneg_of_isF32 (isF32_ofBits w)))
  unfold macaqueVGrid at h
  unfold macaqueVSum
  split at h
  · cases h
  · split at h
    ·       exact ⟨_, (run_runSum n _ (.fin false 0) h).1, hfold _ _ (by rintro s q h; injection h with _ h; rw [← h])⟩
    · split at h
      · cases h
      · rename_i first bits' hrd
        split at h
        · cases h
        · split at h
          · cases h
          · rename_i hrun
            exact ⟨_, (run_runSum _ _ (FVal.ofBits32 (first % 2 ^ 32)) hrun).1, hfold _ _ (nonneg_of_isF32 (isF32_ofBits _))⟩

/-- The sum of a segment without a linear model can be computed. -/
theorem segmentSum_some {s : Segment} {ts : List Int} {ws : List Nat} (hg : grid s = some (ts, ws)) (hty : s.modelType ≠ .swing)
    (hxor : s.modelType = .macaqueV → s.residuals = []) (hlen : segmentLen s.startTime s.endTime s.timestamps = some ts.length) : ∃ x, segmentSum s = some x ∧ NonnegMag x := by
  have hmul : ∀ (n : Int) (v : Nat), NonnegMag (FVal.mul f32Fmt (FVal.ofInt f32Fmt n) (FVal.ofBits32 v)) := by
    intro n v s q h
    have h1 : NonnegMag (FVal.ofInt f32Fmt n) := nonneg_ofRat
    have h2 : NonnegMag (FVal.ofBits32 v) := nonneg_of_isF32 (isF32_ofBits v)
    cases hx : FVal.ofInt f32Fmt n <;> cases hy : FVal.ofBits32 v <;> rw [hx, hy] at h <;> simp only [FVal.mul] at h
    all_goals first | cases h | skip
    · split at h <;> cases h
    · split at h <;> cases h
    · exact nonneg_round (mul_nonneg (h1 _ _ hx) (h2 _ _ hy)) s q h
  unfold grid at hg
  split at hg
  · cases hg
  · rename_i ts' hts
    split at hg
    · cases hg
    · rename_i hres
      dsimp only at hg
      split at hg
      · cases hg
      · rename_i mv hmv
        have hl : ts'.length = ts.length := by
          split at hg
          · simp only [Option.some.injEq, Prod.mk.injEq] at hg; rw [hg.1]
          · split at hg
            · cases hg
            · split at hg
              · cases hg
              · simp only [Option.some.injEq, Prod.mk.injEq] at hg; rw [hg.1]
        unfold segmentSum
        rw [hlen, ← hl]
        dsimp only
        rw [if_neg hres]
        unfold Segment.modelValues at hmv
        have hl' : (ts'.take (ts'.length - residualsLength s.residuals)).length = ts'.length - residualsLength s.residuals := by
          rw [List.length_take]; omega
        cases hm : s.modelType with
        | swing => exact absurd hm hty
        | macaqueV =>
          rw [hm] at hmv
          dsimp only at hmv ⊢
          rw [hl'] at hmv
          obtain ⟨x, hx, hn⟩ := macaqueVSum_some hmv
          rw [hx]
          dsimp only
          rw [hxor hm]
          exact ⟨x, rfl, hn⟩
        | pmcMean =>
          rw [hm] at hmv
          dsimp only at hmv ⊢
          cases hv : decodeValuesForPmcMean s.minValue s.maxValue s.values with
          | none => rw [hv] at hmv; cases hmv
          | some v =>
            rw [hv] at hmv
            dsimp only at hmv ⊢
            rw [hl'] at hmv
            injection hmv with hmv
            subst hmv
            by_cases hr : s.residuals.isEmpty = true
            · rw [if_pos hr]
              exact ⟨_, rfl, hmul _ _⟩
            · rw [if_neg hr] at hg ⊢
              rcases Nat.eq_zero_or_pos (ts'.length - residualsLength s.residuals) with h0 | hpos
              · rw [h0] at hg; cases hg
              rw [show (pmcMeanGrid v (ts'.length - residualsLength s.residuals)).getLast? = some v by
                rw [pmcMeanGrid, List.getLast?_replicate, if_neg (by omega)]] at hg
              dsimp only at hg
              rw [show (ts'.drop (ts'.length - residualsLength s.residuals)).length = residualsLength s.residuals by
                rw [List.length_drop]; omega] at hg
              cases hmg : macaqueVGrid s.residuals.dropLast (residualsLength s.residuals) (some v) with
              | none => rw [hmg] at hg; cases hg
              | some rs =>
                obtain ⟨x, hx, hn⟩ := macaqueVSum_some hmg
                rw [hx]
                exact ⟨_, rfl, nonneg_add _ _ (hmul _ _) hn⟩

/-! ### Values -/

/-- The values that reading a segment gives. -/
def valuesOf (s : Segment) : List Nat :=
  match grid s with
  | some (_, ws) => ws
  | none => []

theorem valuesOf_eq {s : Segment} {ts : List Int} {ws : List Nat} (h : grid s = some (ts, ws)) : valuesOf s = ws := by
  unfold valuesOf
  rw [h]

theorem gridAll_values {l : List Segment} {times : List Int} {values : List Nat} (h : gridAll l = some (times, values)) :
    values = l.flatMap valuesOf ∧ ∀ s ∈ l, ∃ ts, grid s = some (ts, valuesOf s) := by
  induction l generalizing times values with
  | nil =>
    simp only [gridAll, List.foldr_nil, Option.some.injEq, Prod.mk.injEq] at h
    exact ⟨h.2.symm, by simp⟩
  | cons s l ih =>
    simp only [gridAll, List.foldr_cons] at h
    split at h
    · rename_i ts vs ts' vs' hg hrest
      simp only [Option.some.injEq, Prod.mk.injEq] at h
      obtain ⟨h1, h2⟩ := ih hrest
      refine ⟨?_, ?_⟩
      · rw [List.flatMap_cons, valuesOf_eq hg, ← h1, ← h.2]
      · intro x hx
        rcases List.mem_cons.mp hx with rfl | hx
        · exact ⟨ts, by rw [valuesOf_eq hg]; exact hg⟩
        · exact h2 x hx
    · cases h

theorem flatMap_flatten {α β : Type} (f : α → List β) (l : List (List α)) : l.flatten.flatMap f = l.flatMap fun x => x.flatMap f := by
  induction l with
  | nil => rfl
  | cons a l ih => rw [List.flatten_cons, List.flatMap_append, ih, List.flatMap_cons]

theorem mapAll_some {α β : Type} {f : α → Option β} {g : α → β} : ∀ {l : List α}, (∀ a ∈ l, f a = some (g a)) → mapAll f l = some (l.map g)
  | [], _ => rfl
  | a :: l, h => by
    rw [mapAll, h a (by simp), mapAll_some fun x hx => h x (List.mem_cons_of_mem _ hx)]
    rfl

/-! ### Counts -/

theorem countState_eq (l : List Segment) (hl : ∀ s ∈ l, segmentLen s.startTime s.endTime s.timestamps = some (valuesOf s).length)
    (count : Nat) (hsize : count + (l.flatMap valuesOf).length < 2 ^ 63) :
    countState count l = some ((count + (l.flatMap valuesOf).length : Nat) : Int) := by
  induction l generalizing count with
  | nil => simp [countState]
  | cons s l ih =>
    rw [List.flatMap_cons, List.length_append] at hsize ⊢
    rw [countState, hl s (by simp)]
    dsimp only
    rw [wrapI64_of_range (x := ((valuesOf s).length : Int)) (by unfold IsI64; omega),
      wrapI64_of_range (by unfold IsI64; omega)]
    have := ih (fun x hx => hl x (by simp [hx])) (count + (valuesOf s).length) (by omega)
    rw [Nat.cast_add] at this
    rw [this]
    congr 2
    omega

theorem avgCountState_eq (l : List Segment) (hl : ∀ s ∈ l, segmentLen s.startTime s.endTime s.timestamps = some (valuesOf s).length)
    (count : Nat) (hsize : count + (l.flatMap valuesOf).length < 2 ^ 63) :
    avgCountState count l = some (count + (l.flatMap valuesOf).length) := by
  induction l generalizing count with
  | nil => simp [avgCountState]
  | cons s l ih =>
    rw [List.flatMap_cons, List.length_append] at hsize ⊢
    rw [avgCountState, hl s (by simp)]
    dsimp only
    rw [Nat.mod_eq_of_lt (by omega), ih (fun x hx => hl x (by simp [hx])) _ (by omega)]
    congr 1
    omega

theorem foldl_count (f : List Segment → Nat) (l : List (List Segment)) (a : Nat) (h : a + (l.map f).sum < 2 ^ 63) :
    (l.map fun p => ((f p : Nat) : Int)).foldl (fun a n => wrapI64 (a + n)) a = ((a + (l.map f).sum : Nat) : Int) := by
  induction l generalizing a with
  | nil => simp
  | cons p l ih =>
    simp only [List.map_cons, List.sum_cons, List.foldl_cons] at h ⊢
    rw [wrapI64_of_range (by unfold IsI64; omega)]
    have := ih (a + f p) (by omega)
    rw [Nat.cast_add] at this
    rw [this]
    congr 1
    omega

theorem foldl_avgCount (f : List Segment → Nat) (l : List (List Segment)) (a : Nat) (h : a + (l.map f).sum < 2 ^ 63) :
    (l.map f).foldl (fun a n => (a + n) % 2 ^ 64) a = a + (l.map f).sum := by
  induction l generalizing a with
  | nil => simp
  | cons p l ih =>
    rw [List.map_cons, List.sum_cons] at h ⊢
    rw [List.foldl_cons, Nat.mod_eq_of_lt (by omega), ih _ (by omega)]
    omega

theorem sum_lengths (l : List (List Segment)) :
    (l.map fun p => (p.flatMap valuesOf).length).sum = (l.flatten.flatMap valuesOf).length := by
  rw [flatMap_flatten, List.length_flatMap]

/-! ### Extrema -/

/-- `m` is `init` or one of the values, and no value is smaller. -/
def MinOf (init m : FVal) (ws : List Nat) : Prop :=
  m.isNan = false ∧ (m = init ∨ ∃ w ∈ ws, m = FVal.ofBits32 w) ∧ ∀ w ∈ ws, (FVal.ofBits32 w).lt m = false

/-- `m` is `init` or one of the values, and no value is larger. -/
def MaxOf (init m : FVal) (ws : List Nat) : Prop :=
  m.isNan = false ∧ (m = init ∨ ∃ w ∈ ws, m = FVal.ofBits32 w) ∧ ∀ w ∈ ws, m.lt (FVal.ofBits32 w) = false

theorem MinOf.append {init m n : FVal} {a b : List Nat} (ha : MinOf init m a) (hb : MinOf init n b) : MinOf init (m.min n) (a ++ b) := by
  obtain ⟨h1, h2, h3⟩ := ha
  obtain ⟨k1, k2, k3⟩ := hb
  unfold FVal.min
  rw [h1, k1]
  simp only [Bool.false_eq_true, if_false]
  by_cases hlt : n.lt m = true
  · rw [if_pos hlt]
    refine ⟨k1, k2.imp id (fun ⟨w, hw, e⟩ => ⟨w, by simp [hw], e⟩), fun w hw => ?_⟩
    rcases List.mem_append.mp hw with h | h
    · exact not_lt_trans h1 (h3 w h) (flt_asymm hlt)
    · exact k3 w h
  · rw [if_neg hlt]
    refine ⟨h1, h2.imp id (fun ⟨w, hw, e⟩ => ⟨w, by simp [hw], e⟩), fun w hw => ?_⟩
    rcases List.mem_append.mp hw with h | h
    · exact h3 w h
    · exact not_lt_trans k1 (k3 w h) (by simpa using hlt)

theorem MaxOf.append {init m n : FVal} {a b : List Nat} (ha : MaxOf init m a) (hb : MaxOf init n b) : MaxOf init (m.max n) (a ++ b) := by
  obtain ⟨h1, h2, h3⟩ := ha
  obtain ⟨k1, k2, k3⟩ := hb
  unfold FVal.max
  rw [h1, k1]
  simp only [Bool.false_eq_true, if_false]
  by_cases hlt : m.lt n = true
  · rw [if_pos hlt]
    refine ⟨k1, k2.imp id (fun ⟨w, hw, e⟩ => ⟨w, by simp [hw], e⟩), fun w hw => ?_⟩
    rcases List.mem_append.mp hw with h | h
    · exact not_lt_trans h1 (flt_asymm hlt) (h3 w h)
    · exact k3 w h
  · rw [if_neg hlt]
    refine ⟨h1, h2.imp id (fun ⟨w, hw, e⟩ => ⟨w, by simp [hw], e⟩), fun w hw => ?_⟩
    rcases List.mem_append.mp hw with h | h
    · exact h3 w h
    · exact not_lt_trans k1 (by simpa using hlt) (k3 w h)

theorem minState_minOf {f : Segment → List Nat} (l : List Segment) (hl : ∀ s ∈ l, MinOf f32Max (FVal.ofBits32 s.minValue) (f s)) :
    MinOf f32Max (minState l) (l.flatMap f) := by
  have : ∀ (l : List Segment) (m : FVal) (ws : List Nat), MinOf f32Max m ws →
      (∀ s ∈ l, MinOf f32Max (FVal.ofBits32 s.minValue) (f s)) →
      MinOf f32Max (l.foldl (fun m s => FVal.min m (FVal.ofBits32 s.minValue)) m) (ws ++ l.flatMap f) := by
    intro l
    induction l with
    | nil => intro m ws h _; simpa using h
    | cons s l ih =>
      intro m ws h hl
      rw [List.foldl_cons, List.flatMap_cons, ← List.append_assoc]
      exact ih _ _ (h.append (hl s (by simp))) fun x hx => hl x (by simp [hx])
  exact this l f32Max [] ⟨rfl, .inl rfl, by simp⟩ hl

theorem maxState_maxOf {f : Segment → List Nat} (l : List Segment) (hl : ∀ s ∈ l, MaxOf f32Min (FVal.ofBits32 s.maxValue) (f s)) :
    MaxOf f32Min (maxState l) (l.flatMap f) := by
  have : ∀ (l : List Segment) (m : FVal) (ws : List Nat), MaxOf f32Min m ws →
      (∀ s ∈ l, MaxOf f32Min (FVal.ofBits32 s.maxValue) (f s)) →
      MaxOf f32Min (l.foldl (fun m s => FVal.max m (FVal.ofBits32 s.maxValue)) m) (ws ++ l.flatMap f) := by
    intro l
    induction l with
    | nil => intro m ws h _; simpa using h
    | cons s l ih =>
      intro m ws h hl
      rw [List.foldl_cons, List.flatMap_cons, ← List.append_assoc]
      exact ih _ _ (h.append (hl s (by simp))) fun x hx => hl x (by simp [hx])
  exact this l f32Min [] ⟨rfl, .inl rfl, by simp⟩ hl

theorem mergeMin {f : Segment → List Nat} (partitions : List (List Segment)) (hne : partitions ≠ [])
    (hl : ∀ p ∈ partitions, MinOf f32Max (minState p) (p.flatMap f)) :
    ∃ m, mergeWith FVal.min (partitions.map minState) = .f32 m ∧ MinOf f32Max m (partitions.flatten.flatMap f) := by
  have : ∀ (l : List (List Segment)) (m : FVal) (ws : List Nat), MinOf f32Max m ws →
      (∀ p ∈ l, MinOf f32Max (minState p) (p.flatMap f)) →
      MinOf f32Max ((l.map minState).foldl FVal.min m) (ws ++ l.flatten.flatMap f) := by
    intro l
    induction l with
    | nil => intro m ws h _; simpa using h
    | cons p l ih =>
      intro m ws h hl
      rw [List.map_cons, List.foldl_cons, List.flatten_cons, List.flatMap_append, ← List.append_assoc]
      exact ih _ _ (h.append (hl p (by simp))) fun x hx => hl x (by simp [hx])
  obtain ⟨p, rest, rfl⟩ := List.exists_cons_of_ne_nil hne
  refine ⟨_, rfl, ?_⟩
  rw [List.flatten_cons, List.flatMap_append]
  exact this rest _ _ (hl p (by simp)) fun x hx => hl x (by simp [hx])

theorem mergeMax {f : Segment → List Nat} (partitions : List (List Segment)) (hne : partitions ≠ [])
    (hl : ∀ p ∈ partitions, MaxOf f32Min (maxState p) (p.flatMap f)) :
    ∃ m, mergeWith FVal.max (partitions.map maxState) = .f32 m ∧ MaxOf f32Min m (partitions.flatten.flatMap f) := by
  have : ∀ (l : List (List Segment)) (m : FVal) (ws : List Nat), MaxOf f32Min m ws →
      (∀ p ∈ l, MaxOf f32Min (maxState p) (p.flatMap f)) →
      MaxOf f32Min ((l.map maxState).foldl FVal.max m) (ws ++ l.flatten.flatMap f) := by
    intro l
    induction l with
    | nil => intro m ws h _; simpa using h
    | cons p l ih =>
      intro m ws h hl
      rw [List.map_cons, List.foldl_cons, List.flatten_cons, List.flatMap_append, ← List.append_assoc]
      exact ih _ _ (h.append (hl p (by simp))) fun x hx => hl x (by simp [hx])
  obtain ⟨p, rest, rfl⟩ := List.exists_cons_of_ne_nil hne
  refine ⟨_, rfl, ?_⟩
  rw [List.flatten_cons, List.flatMap_append]
  exact this rest _ _ (hl p (by simp)) fun x hx => hl x (by simp [hx])

theorem eq_of_not_lt {x y : FVal} (hx : x.isNan = false) (hy : y.isNan = false) (h1 : x.lt y = false) (h2 : y.lt x = false) :
    x.eq y = true := by
  cases x with
  | nan => cases hx
  | inf s =>
    cases y with
    | nan => cases hy
    | inf t => revert h1 h2; cases s <;> cases t <;> decide
    | fin t q => cases s <;> simp_all [FVal.lt]
  | fin s p =>
    cases y with
    | nan => cases hy
    | inf t => cases t <;> simp_all [FVal.lt]
    | fin t q =>
      simp only [FVal.lt, decide_eq_false_iff_not, not_lt, FVal.eq, decide_eq_true_eq] at *
      exact le_antisymm h2 h1

theorem eq_refl {x : FVal} (h : x.isNan = false) : x.eq x = true := eq_of_not_lt h h (flt_irrefl x) (flt_irrefl x)

theorem mag32_le {q : ℚ} (h : Mag32 q) : q ≤ 2 ^ 128 - 2 ^ 104 := by
  obtain ⟨m, e, hm, _, rfl⟩ := h.rep
  have hlt := h.lt
  have hm' : m < 2 ^ 24 := hm
  rcases le_or_gt e 104 with he | he
  · have h1 : pow2 e ≤ pow2 104 := pow2_le he
    have h2 : pow2 104 = 2 ^ 104 := by rw [pow2_eq]; norm_num
    have h3 : (m : ℚ) ≤ 2 ^ 24 - 1 := by
      have : (m : ℚ) + 1 ≤ 2 ^ 24 := by exact_mod_cast hm'
      linarith
    have h4 := pow2_pos e
    calc (m : ℚ) * pow2 e ≤ (2 ^ 24 - 1) * pow2 104 := mul_le_mul h3 h1 h4.le (by norm_num)
      _ = 2 ^ 128 - 2 ^ 104 := by rw [h2]; norm_num
  · obtain ⟨k, hk⟩ := Int.eq_ofNat_of_zero_le (show 0 ≤ e - 104 by omega)
    have he' : e = (k : Int) + 104 := by omega
    rw [he', pow2_add, pow2_natCast, show pow2 104 = 2 ^ 104 by rw [pow2_eq]; norm_num] at hlt ⊢
    have h2 : pow2 128 = 2 ^ 24 * 2 ^ 104 := by rw [pow2_eq]; norm_num
    rw [h2, ← mul_assoc] at hlt
    have h3 : (m : ℚ) * 2 ^ k < 2 ^ 24 := lt_of_mul_lt_mul_right hlt (by norm_num)
    have h4 : m * 2 ^ k < 2 ^ 24 := by exact_mod_cast h3
    have h5 : (m : ℚ) * 2 ^ k ≤ 2 ^ 24 - 1 := by
      have : ((m * 2 ^ k : Nat) : ℚ) + 1 ≤ 2 ^ 24 := by exact_mod_cast h4
      push_cast at this
      linarith
    calc (m : ℚ) * (2 ^ k * 2 ^ 104) = (m : ℚ) * 2 ^ k * 2 ^ 104 := by ring
      _ ≤ (2 ^ 24 - 1) * 2 ^ 104 := mul_le_mul_of_nonneg_right h5 (by norm_num)
      _ = _ := by norm_num

/-- No number is larger than `f32::MAX`. -/
theorem f32Max_eq : f32Max = .fin false (2 ^ 128 - 2 ^ 104) := by unfold f32Max; norm_num

theorem f32Min_eq : f32Min = .fin true (2 ^ 128 - 2 ^ 104) := by unfold f32Min; norm_num

theorem largest_not_lt {v : Nat} (h : FVal.ofBits32 v ≠ .inf false) : f32Max.lt (FVal.ofBits32 v) = false := by
  cases hv : FVal.ofBits32 v with
  | nan => rfl
  | inf s => cases s
             · exact absurd hv h
             · rfl
  | fin s q =>
    have hm := mag32_ofBits v hv
    have : q ≤ 2 ^ 128 - 2 ^ 104 := mag32_le hm
    have h0 := hm.nonneg
    simp only [f32Max_eq, FVal.lt, FVal.signed]
    cases s <;> simp <;> linarith

/-- No number is smaller than `f32::MIN`. -/
theorem smallest_not_lt {v : Nat} (h : FVal.ofBits32 v ≠ .inf true) : (FVal.ofBits32 v).lt f32Min = false := by
  cases hv : FVal.ofBits32 v with
  | nan => rfl
  | inf s => cases s
             · rfl
             · exact absurd hv h
  | fin s q =>
    have hm := mag32_ofBits v hv
    have : q ≤ 2 ^ 128 - 2 ^ 104 := mag32_le hm
    have h0 := hm.nonneg
    simp only [f32Min_eq, FVal.lt, decide_eq_false_iff_not, not_lt, FVal.signed]
    cases s <;> simp <;> linarith

/-! ### Sums -/

theorem nonneg_sum {fmt : Fmt} (a b : FVal) : NonnegMag (FVal.add fmt a b) := by
  intro s q h
  cases a with
  | nan => cases h
  | inf u =>
    cases b with
    | nan => cases h
    | inf t => simp only [FVal.add] at h; split at h <;> cases h
    | fin t r => cases h
  | fin u p =>
    cases b with
    | nan => cases h
    | inf t => cases h
    | fin t r => exact nonneg_ofRat s q h

theorem nonneg_foldl : ∀ (xs : List FVal) (acc : FVal), NonnegMag acc → NonnegMag (xs.foldl (FVal.add f64Fmt) acc)
  | [], _, h => h
  | _ :: xs, _, _ => nonneg_foldl xs _ (nonneg_sum _ _)

/-- The roundings of the sum of a segment with at most `N` points. -/
def segmentFactor (N : Nat) : ℚ := (1 + 1 / 2 ^ 24) ^ (N + 3)

theorem segmentFactor_ge (N : Nat) : 1 ≤ segmentFactor N := one_le_pow₀ (by norm_num)

theorem unit64_eq : unit64 = 1 / 2 ^ 53 := by unfold unit64; rw [pow2_eq]; norm_num

/-- The sum of a segment can be computed and is near the exact sum if it is finite. -/
def SegmentSums (N : Nat) (s : Segment) : Prop :=
  ∃ x, segmentSum s = some x ∧ NonnegMag x ∧
    (x.isFinite = true → NearSum (segmentFactor N) x (exactSum (valuesOf s)) (exactAbsSum (valuesOf s)))

theorem sumState_some (N : Nat) (l : List Segment) (hl : ∀ s ∈ l, SegmentSums N s) (acc : FVal) : ∃ x, sumState acc l = some x := by
  induction l generalizing acc with
  | nil => exact ⟨acc, rfl⟩
  | cons s l ih =>
    obtain ⟨x, hx, _⟩ := hl s (by simp)
    rw [sumState, hx]
    exact ih (fun y hy => hl y (by simp [hy])) _

theorem sumState_finite {N : Nat} {l : List Segment} (hl : ∀ s ∈ l, SegmentSums N s) {acc x : FVal} (h : sumState acc l = some x)
    (hfin : x.isFinite = true) : acc.isFinite = true := by
  induction l generalizing acc with
  | nil =>
    simp only [sumState, Option.some.injEq] at h
    rw [h]; exact hfin
  | cons s l ih =>
    obtain ⟨y, hy, _⟩ := hl s (by simp)
    rw [sumState, hy] at h
    have := ih (fun z hz => hl z (by simp [hz])) h
    by_contra hc
    rw [Bool.not_eq_true] at hc
    rw [add64_not_finite (.inl hc)] at this
    cases this

theorem sumState_near (N : Nat) (l : List Segment) (hl : ∀ s ∈ l, SegmentSums N s) {acc : FVal} {P A : ℚ} {j : Nat} (hj : 1 ≤ j)
    (hacc : NearSum (segmentFactor N * (1 + unit64) ^ j) acc P A) {x : FVal} (h : sumState acc l = some x) (hfin : x.isFinite = true) :
    NearSum (segmentFactor N * (1 + unit64) ^ (j + l.length)) x (P + exactSum (l.flatMap valuesOf)) (A + exactAbsSum (l.flatMap valuesOf)) := by
  have hu := unit64_pos
  have hg := segmentFactor_ge N
  induction l generalizing acc P A j with
  | nil =>
    simp only [sumState, Option.some.injEq] at h
    subst h
    simpa [exactSum, exactAbsSum] using hacc
  | cons s l ih =>
    obtain ⟨y, hy, hmag, hnear⟩ := hl s (by simp)
    rw [sumState, hy] at h
    dsimp only at h
    have hf := sumState_finite (fun z hz => hl z (by simp [hz])) h hfin
    have hfy : (FVal.convert f64Fmt y).isFinite = true := by
      by_contra hc
      rw [Bool.not_eq_true] at hc
      rw [add64_not_finite (.inr hc)] at hf
      cases hf
    have hfy' : y.isFinite = true := by
      by_contra hc
      rw [Bool.not_eq_true] at hc
      rw [convert64_not_finite hc] at hfy
      cases hfy
    have hc := ((hnear hfy').convert hmag hfy).mono (h := segmentFactor N * (1 + unit64) ^ j) (by
      refine mul_le_mul_of_nonneg_left ?_ (by linarith)
      calc 1 + unit64 = (1 + unit64) ^ 1 := (pow_one _).symm
        _ ≤ _ := pow_le_pow_right₀ (by linarith) hj)
    have hadd := hacc.add hc hf
    rw [mul_assoc, ← pow_succ] at hadd
    have := ih (fun z hz => hl z (by simp [hz])) (by omega) hadd h
    rw [List.flatMap_cons, exactSum_append, exactAbsSum_append, ← add_assoc, ← add_assoc, List.length_cons,
      show j + (l.length + 1) = j + 1 + l.length by omega]
    exact this

theorem foldl_finite : ∀ (xs : List FVal) (acc : FVal), (xs.foldl (FVal.add f64Fmt) acc).isFinite = true →
    acc.isFinite = true ∧ ∀ x ∈ xs, x.isFinite = true
  | [], acc, h => ⟨h, by simp⟩
  | x :: xs, acc, h => by
    obtain ⟨h1, h2⟩ := foldl_finite xs _ h
    constructor
    · by_contra hc
      rw [Bool.not_eq_true] at hc
      rw [add64_not_finite (.inl hc)] at h1
      cases h1
    · intro y hy
      rcases List.mem_cons.mp hy with rfl | hy
      · by_contra hc
        rw [Bool.not_eq_true] at hc
        rw [add64_not_finite (.inr hc)] at h1
        cases h1
      · exact h2 y hy

theorem nearSum_zero (g : ℚ) : NearSum g (.fin false 0) 0 0 :=
  ⟨by simp, 0, ⟨⟨false, 0, rfl, by simp [ratOf]⟩, 0, by simp⟩, by simp⟩

theorem merge_near {g : ℚ} (hg : 1 ≤ g) {state : List Segment → FVal} : ∀ (partitions : List (List Segment)) {acc : FVal} {P A : ℚ} {j : Nat},
    (∀ p ∈ partitions, (state p).isFinite = true → NearSum g (state p) (exactSum (p.flatMap valuesOf)) (exactAbsSum (p.flatMap valuesOf))) →
    NearSum (g * (1 + unit64) ^ j) acc P A → ((partitions.map state).foldl (FVal.add f64Fmt) acc).isFinite = true →
    NearSum (g * (1 + unit64) ^ (j + partitions.length)) ((partitions.map state).foldl (FVal.add f64Fmt) acc)
      (P + exactSum (partitions.flatten.flatMap valuesOf)) (A + exactAbsSum (partitions.flatten.flatMap valuesOf))
  | [], acc, P, A, j, _, h, _ => by simpa [exactSum, exactAbsSum] using h
  | p :: rest, acc, P, A, j, hl, h, hfin => by
    have hu := unit64_pos
    rw [List.map_cons, List.foldl_cons] at hfin ⊢
    have hf := (foldl_finite _ _ hfin).1
    have hfp : (state p).isFinite = true := by
      by_contra hc
      rw [Bool.not_eq_true] at hc
      rw [add64_not_finite (.inr hc)] at hf
      cases hf
    have hp := (hl p (by simp) hfp).mono (h := g * (1 + unit64) ^ j)
      (le_mul_of_one_le_right (by linarith) (one_le_pow₀ (by linarith)))
    have hadd := h.add hp hf
    rw [mul_assoc, ← pow_succ] at hadd
    have := merge_near hg rest (fun q hq => hl q (by simp [hq])) hadd hfin
    rw [List.flatten_cons, List.flatMap_append, exactSum_append, exactAbsSum_append, ← add_assoc, ← add_assoc, List.length_cons,
      show j + (rest.length + 1) = j + 1 + rest.length by omega]
    exact this

end ModelarDB.Lemmas
