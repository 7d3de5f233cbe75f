import Verif.Lemmas.Aggregates
import Verif.Props.C12Linear
/-
Sums of segments whose errors are known, for C38.
-/
namespace ModelarDB.Lemmas
open Model Spec Model.Aggregates Props

theorem isF32_round {s : Bool} {q : ℚ} (hq : 0 ≤ q) : IsF32 (FVal.round f32Fmt s q) := by
  unfold FVal.round
  dsimp only
  split
  · trivial
  · rename_i h
    exact ⟨roundMag_nonneg hq, roundMag_representable (by decide) hq, not_le.mp h⟩

theorem isF32_zero (s : Bool) : IsF32 (.fin s 0) := by
  have := isF32_ofBits 0
  have h : FVal.ofBits32 0 = .fin false 0 := by decide +kernel
  rw [h] at this
  exact this

theorem isF32_ofRat {z : Bool} {q : ℚ} : IsF32 (FVal.ofRat f32Fmt z q) := by
  unfold FVal.ofRat
  split
  · exact isF32_zero z
  · split
    · exact isF32_round (by linarith)
    · exact isF32_round (by linarith)

theorem isF32_add (a b : FVal) : IsF32 (FVal.add f32Fmt a b) := by
  cases a <;> cases b <;> simp only [FVal.add] <;> try trivial
  · split <;> trivial
  · exact isF32_ofRat

theorem isF32_runSum (n : Nat) (d : XorDecoder) (acc : FVal) (hacc : IsF32 acc) {sum : FVal} (h : XorDecoder.runSum n d acc = some sum) :
    IsF32 sum := by
  induction n generalizing d acc with
  | zero =>
    simp only [XorDecoder.runSum, Option.some.injEq] at h
    exact h ▸ hacc
  | succ n ih =>
    simp only [XorDecoder.runSum] at h
    split at h
    · cases h
    · exact ih _ _ (isF32_add _ _) h

theorem isF32_macaqueVSum {n : Nat} {values : List Nat} {last : Option Nat} {sum : FVal} (h : macaqueVSum n values last = some sum) : IsF32 sum := by
  unfold macaqueVSum at h
  split at h
  · cases h
  · split at h
    · exact isF32_runSum _ _ _ (isF32_zero _) h
    · split at h
      · cases h
      · split at h
        · cases h
        · exact isF32_runSum _ _ _ (isF32_ofBits _) h

theorem ok_of_isF32 {x : FVal} (h : IsF32 x) : Ok x := by
  cases x with
  | fin s q => exact nonneg_of_isF32 h s q rfl
  | _ => trivial

theorem isF32_pmcMeanSum (n : Nat) (v : Nat) : IsF32 (pmcMeanSum n (FVal.ofBits32 v)) := by
  unfold pmcMeanSum
  have h2 := ok_ofBits v
  have h1 : Ok (FVal.ofInt f32Fmt (n : Int)) := ok_of_isF32 isF32_ofRat
  generalize FVal.ofBits32 v = b at *
  generalize FVal.ofInt f32Fmt (n : Int) = a at *
  cases a <;> cases b <;> simp only [FVal.mul] <;> try (first | trivial | (split <;> trivial))
  exact isF32_round (mul_nonneg h1 h2)

theorem isF32_withResiduals {residuals : List Nat} {last : Nat} {modelSum sum : FVal} (hm : IsF32 modelSum)
    (h : (if residuals.isEmpty = true then some modelSum
      else
        match macaqueVSum (residualsLength residuals) residuals.dropLast (some last) with
        | none => none
        | some residualsSum => some (FVal.add f32Fmt modelSum residualsSum)) = some sum) : IsF32 sum := by
  split at h
  · injection h with h
    exact h ▸ hm
  · split at h
    · cases h
    · injection h with h
      exact h ▸ isF32_add _ _

/-- The sum of a segment is a binary32 number. -/
theorem segmentSum_isF32 {s : Segment} {sum : FVal} (h : segmentSum s = some sum) : IsF32 sum := by
  unfold segmentSum at h
  split at h
  · cases h
  · split at h
    · cases h
    · split at h
      · split at h
        · cases h
        · exact isF32_withResiduals (isF32_pmcMeanSum _ _) h
      · split at h
        · cases h
        · split at h
          · cases h
          · rename_i h'
            exact isF32_withResiduals (swingSum_isF32 h') h
      · dsimp only at h
        cases h' : macaqueVSum (_ - residualsLength s.residuals) s.values none with
        | none => rw [h'] at h; cases h
        | some x =>
          rw [h'] at h
          exact isF32_withResiduals (isF32_macaqueVSum h') h

/-- The number that the sum of a segment is, zero if it is not finite. -/
def sumOf (s : Segment) : ℚ := valueOf ((segmentSum s).getD .nan)

theorem nearSum_sumOf {s : Segment} {x : FVal} (h : segmentSum s = some x) (hfin : x.isFinite = true) :
    NearSum 1 x (sumOf s) |sumOf s| := by
  have h1 := segmentSum_isF32 h
  unfold sumOf
  rw [h]
  cases x with
  | nan => cases hfin
  | inf s => cases hfin
  | fin b q => exact ⟨le_refl _, _, num32_of_isF32 h1 (is_fin b q), by simp [valueOf]⟩

theorem sumState_total (l : List Segment) (hl : ∀ s ∈ l, ∃ x, segmentSum s = some x) (acc : FVal) : ∃ x, sumState acc l = some x := by
  induction l generalizing acc with
  | nil => exact ⟨acc, rfl⟩
  | cons s l ih =>
    obtain ⟨x, hx⟩ := hl s (by simp)
    rw [sumState, hx]
    exact ih (fun y hy => hl y (by simp [hy])) _

/-- A finite sum of segments comes from finite sums. -/
theorem sumState_all_finite {l : List Segment} (hl : ∀ s ∈ l, ∃ x, segmentSum s = some x) {acc x : FVal} (h : sumState acc l = some x)
    (hfin : x.isFinite = true) : acc.isFinite = true ∧ ∀ s ∈ l, ∃ y, segmentSum s = some y ∧ y.isFinite = true := by
  induction l generalizing acc with
  | nil =>
    simp only [sumState, Option.some.injEq] at h
    exact ⟨h ▸ hfin, by simp⟩
  | cons s l ih =>
    obtain ⟨y, hy⟩ := hl s (by simp)
    rw [sumState, hy] at h
    obtain ⟨h1, h2⟩ := ih (fun z hz => hl z (by simp [hz])) h
    refine ⟨?_, ?_⟩
    · by_contra hc
      rw [Bool.not_eq_true] at hc
      rw [add64_not_finite (.inl hc)] at h1
      cases h1
    · intro z hz
      rcases List.mem_cons.mp hz with rfl | hz
      · refine ⟨y, hy, ?_⟩
        by_contra hc
        rw [Bool.not_eq_true] at hc
        rw [add64_not_finite (.inr (convert64_not_finite hc))] at h1
        cases h1
      · exact h2 z hz

theorem sumState_sumOf (l : List Segment) (hl : ∀ s ∈ l, ∃ x, segmentSum s = some x) {acc : FVal} {P A : ℚ} {j : Nat} (hj : 1 ≤ j)
    (hacc : NearSum ((1 + unit64) ^ j) acc P A) {x : FVal} (h : sumState acc l = some x) (hfin : x.isFinite = true) :
    NearSum ((1 + unit64) ^ (j + l.length)) x (P + (l.map sumOf).sum) (A + (l.map fun s => |sumOf s|).sum) := by
  have hu := unit64_pos
  induction l generalizing acc P A j with
  | nil =>
    simp only [sumState, Option.some.injEq] at h
    subst h
    simpa using hacc
  | cons s l ih =>
    obtain ⟨hf0, hall⟩ := sumState_all_finite hl h hfin
    obtain ⟨y, hy, hfy⟩ := hall s (by simp)
    rw [sumState, hy] at h
    dsimp only at h
    have hf := (sumState_all_finite (fun z hz => hl z (by simp [hz])) h hfin).1
    have hfc : (FVal.convert f64Fmt y).isFinite = true := by
      by_contra hc
      rw [Bool.not_eq_true] at hc
      rw [add64_not_finite (.inr hc)] at hf
      cases hf
    have hc := ((nearSum_sumOf hy hfy).convert (nonneg_of_isF32 (segmentSum_isF32 hy)) hfc).mono (h := (1 + unit64) ^ j) (by
      rw [one_mul]
      calc 1 + unit64 = (1 + unit64) ^ 1 := (pow_one _).symm
        _ ≤ _ := pow_le_pow_right₀ (by linarith) hj)
    have hadd := hacc.add hc hf
    rw [← pow_succ] at hadd
    have := ih (fun z hz => hl z (by simp [hz])) (by omega) hadd h
    rw [List.map_cons, List.map_cons, List.sum_cons, List.sum_cons, ← add_assoc, ← add_assoc, List.length_cons,
      show j + (l.length + 1) = j + 1 + l.length by omega]
    exact this

theorem merge_sumOf {g : ℚ} (hg : 1 ≤ g) {state : List Segment → FVal} {F G : List Segment → ℚ} :
    ∀ (partitions : List (List Segment)) {acc : FVal} {P A : ℚ} {j : Nat},
    (∀ p ∈ partitions, (state p).isFinite = true → NearSum g (state p) (F p) (G p)) →
    NearSum (g * (1 + unit64) ^ j) acc P A → ((partitions.map state).foldl (FVal.add f64Fmt) acc).isFinite = true →
    NearSum (g * (1 + unit64) ^ (j + partitions.length)) ((partitions.map state).foldl (FVal.add f64Fmt) acc)
      (P + (partitions.map F).sum) (A + (partitions.map G).sum)
  | [], acc, P, A, j, _, h, _ => by simpa using h
  | p :: rest, acc, P, A, j, hl, h, hfin => by
    have hu := unit64_pos
    rw [List.map_cons, List.foldl_cons] at hfin ⊢
    have hf := (foldl_finite _ _ hfin).1
    have hfp : (state p).isFinite = true := by
      by_contra hc
      rw [Bool.not_eq_true] at hc
      rw [add64_not_finite (.inr hc)] at hf
      cases hf
    have hp := (hl p (by simp) hfp).mono (h := g * (1 + unit64) ^ j)
      (le_mul_of_one_le_right (by linarith) (one_le_pow₀ (by linarith)))
    have hadd := h.add hp hf
    rw [mul_assoc, ← pow_succ] at hadd
    have := merge_sumOf hg rest (fun q hq => hl q (by simp [hq])) hadd hfin
    rw [List.map_cons, List.map_cons, List.sum_cons, List.sum_cons, ← add_assoc, ← add_assoc, List.length_cons,
      show j + (rest.length + 1) = j + 1 + rest.length by omega]
    exact this

theorem sum_flatten_map (f : Segment → ℚ) (partitions : List (List Segment)) :
    (partitions.map fun p => (p.map f).sum).sum = (partitions.flatten.map f).sum := by
  induction partitions with
  | nil => rfl
  | cons p ps ih => simp [ih]

/-- The merged sum and the sums of the segments. -/
theorem merged_sumOf {partitions : List (List Segment)} (hsums : ∀ s ∈ partitions.flatten, ∃ x, segmentSum s = some x) (hpn : partitions ≠ []) :
    ∃ x, (∃ states, mapAll (sumState (.fin false 0)) partitions = some states ∧ states ≠ [] ∧
        states.foldl (FVal.add f64Fmt) (.fin false 0) = x) ∧ NonnegMag x ∧
      (x.isFinite = true → (∀ s ∈ partitions.flatten, ∃ y, segmentSum s = some y ∧ y.isFinite = true) ∧
        NearSum ((1 + unit64) ^ (1 + partitions.flatten.length + partitions.length)) x
          (partitions.flatten.map sumOf).sum (partitions.flatten.map fun s => |sumOf s|).sum) := by
  have hu := unit64_pos
  have hstate : ∀ p ∈ partitions, sumState (.fin false 0) p = some ((sumState (.fin false 0) p).getD .nan) := by
    intro p hp
    obtain ⟨x, hx⟩ := sumState_total p (fun s hs => hsums s (List.mem_flatten_of_mem hp hs)) (.fin false 0)
    rw [hx]; rfl
  refine ⟨_, ⟨_, mapAll_some hstate, by simpa using hpn, rfl⟩, ?_, fun hfin => ⟨?_, ?_⟩⟩
  · exact nonneg_foldl _ _ (by rintro s q h; injection h with _ h; rw [← h])
  · intro s hs
    obtain ⟨p, hp, hsp⟩ := List.mem_flatten.mp hs
    have hf := (foldl_finite _ _ hfin).2 _ (List.mem_map.mpr ⟨p, hp, rfl⟩)
    exact (sumState_all_finite (fun s hs => hsums s (List.mem_flatten_of_mem hp hs)) (hstate p hp) hf).2 s hsp
  · have := merge_sumOf (g := (1 + unit64) ^ (1 + partitions.flatten.length)) (j := 0) (F := fun p => (p.map sumOf).sum)
      (G := fun p => (p.map fun s => |sumOf s|).sum) (one_le_pow₀ (by linarith))
      (state := fun p => (sumState (.fin false 0) p).getD .nan) partitions (fun p hp hf => ?_) (nearSum_zero _) hfin
    · rw [Nat.zero_add, zero_add, zero_add, ← pow_add, sum_flatten_map, sum_flatten_map (fun s => |sumOf s|)] at this
      exact this
    · have := sumState_sumOf p (fun s hs => hsums s (List.mem_flatten_of_mem hp hs)) (j := 1) (le_refl _) (nearSum_zero _)
        (hstate p hp) hf
      rw [zero_add, zero_add] at this
      refine this.mono (pow_le_pow_right₀ (by linarith) ?_)
      have : p.length ≤ partitions.flatten.length := by
        rw [List.length_flatten]
        exact List.le_sum_of_mem (List.mem_map.mpr ⟨p, hp, rfl⟩)
      omega

/-- The sums of the segments and the rows. -/
theorem sums_near (e : Segment → ℚ) : ∀ (l : List Segment), (∀ s ∈ l, |sumOf s - exactSum (valuesOf s)| ≤ e s) →
    |(l.map sumOf).sum - exactSum (l.flatMap valuesOf)| ≤ (l.map e).sum ∧
    (l.map fun s => |sumOf s|).sum ≤ exactAbsSum (l.flatMap valuesOf) + (l.map e).sum
  | [], _ => by simp [exactSum, exactAbsSum]
  | s :: l, h => by
    obtain ⟨h1, h2⟩ := sums_near e l fun s hs => h s (by simp [hs])
    have h0 := h s (by simp)
    rw [List.flatMap_cons, exactSum_append, exactAbsSum_append]
    simp only [List.map_cons, List.sum_cons]
    obtain ⟨a1, a2⟩ := abs_le.mp h0
    obtain ⟨b1, b2⟩ := abs_le.mp h1
    have h3 := exactSum_abs_le (valuesOf s)
    obtain ⟨c1, c2⟩ := abs_le.mp h3
    refine ⟨abs_le.mpr ⟨by linarith, by linarith⟩, ?_⟩
    have : |sumOf s| ≤ exactAbsSum (valuesOf s) + e s := abs_le.mpr ⟨by linarith, by linarith⟩
    linarith

end ModelarDB.Lemmas
