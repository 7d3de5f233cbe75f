import Verif.Lemmas.Compression
import Verif.Lemmas.PmcMean
import Verif.Lemmas.FloatBits
import Verif.Lemmas.MacaqueVBound
/-
What the models returned by `fit_next_model` represent.
-/
namespace ModelarDB.Lemmas
open Model Spec

theorem acceptAll_append_one {σ α : Type} (step : σ → α → σ × Bool) (s s' : σ) (xs : List α) (x : α)
    (h : acceptAll step s xs = some s') (hx : (step s' x).2 = true) :
    acceptAll step s (xs ++ [x]) = some (step s' x).1 := by
  unfold acceptAll at h ⊢
  rw [List.foldlM_append, h]
  simp [hx]

theorem fitValue_length (p : PMCMean) (v : FVal) :
    (p.fitValue v).1.length = if (p.fitValue v).2 then p.length + 1 else p.length := by
  unfold PMCMean.fitValue; dsimp only; split <;> rfl

theorem fitValue_rejected (p : PMCMean) (v : FVal) (h : (p.fitValue v).2 = false) : (p.fitValue v).1 = p := by
  unfold PMCMean.fitValue at h ⊢; dsimp only at h ⊢
  split at h
  · cases h
  · rename_i hc; rw [if_neg hc]

theorem fitDataPoint_rejected (ops : FloatOps) (s : Swing) (t : Int) (v : FVal)
    (h : (s.fitDataPoint ops t v).2 = false) : (s.fitDataPoint ops t v).1 = s := by
  revert h
  unfold Swing.fitDataPoint
  dsimp only
  repeat' split
  all_goals simp

theorem fitDataPoint_length (ops : FloatOps) (s : Swing) (t : Int) (v : FVal)
    (h : (s.fitDataPoint ops t v).2 = true) : (s.fitDataPoint ops t v).1.length = s.length + 1 := by
  revert h
  unfold Swing.fitDataPoint
  dsimp only
  repeat' split
  all_goals simp

theorem acceptAll_length {σ α : Type} (step : σ → α → σ × Bool) (len : σ → Nat)
    (hstep : ∀ s x, (step s x).2 = true → len (step s x).1 = len s + 1) (xs : List α) (s s' : σ)
    (h : acceptAll step s xs = some s') : len s' = len s + xs.length := by
  induction xs using List.reverseRecOn generalizing s' with
  | nil =>
    simp only [acceptAll, List.foldlM_nil] at h
    injection h with h
    subst h; simp
  | append_singleton xs x ih =>
    unfold acceptAll at h ih
    rw [List.foldlM_append] at h
    cases hp : List.foldlM (fun s x => if (step s x).2 then some (step s x).1 else none) s xs with
    | none => rw [hp] at h; cases h
    | some p =>
      rw [hp] at h
      simp only [Option.bind_eq_bind, Option.bind_some, List.foldlM_cons, List.foldlM_nil] at h
      split at h
      · rename_i hacc
        injection h with h
        subst h
        rw [hstep _ _ hacc, ih p hp]
        simp; omega
      · cases h

/-- State of the model builder after some of the points `all` have been offered. -/
structure BuilderInv (start : Nat) (eb : ErrorBound) (all : List (Int × Nat)) (i : Nat) (b : ModelBuilder) : Prop where
  start : b.startIndex = start
  pmc : ∃ k ≤ i, acceptAll PMCMean.fitValue (PMCMean.new eb) ((all.take k).map fun p => FVal.ofBits32 p.2) =
    some b.pmcMean ∧ (b.pmcMeanCouldFitAll = true → k = i) ∧ (0 < i → 0 < k)
  swing : ∃ k ≤ i, acceptAll (swingStep f64Ops) (Swing.new eb) ((all.take k).map fun p => (p.1, FVal.ofBits32 p.2)) =
    some b.swing ∧ (b.swingCouldFitAll = true → k = i) ∧ (0 < i → 0 < k)

theorem ofRat_signed {fmt : Fmt} {z s : Bool} {q : ℚ} (hq : 0 < q) :
    FVal.ofRat fmt z (FVal.signed s q) = FVal.round fmt s q := by
  unfold FVal.ofRat FVal.signed
  cases s
  · simp only [Bool.false_eq_true, if_false]
    rw [if_neg hq.ne', if_neg (by linarith)]
  · simp only [if_true]
    rw [if_neg (by linarith), if_pos (by linarith), neg_neg]

theorem round64_mag32 {s : Bool} {q : ℚ} (h : Mag32 q) : FVal.round f64Fmt s q = .fin s q := by
  have h1 : roundMag f64Fmt q = q := roundMag_exact (representable_f64_of_f32 h.rep)
  rw [round_of_lt (by rw [h1]; exact lt_trans h.lt (pow2_lt (by decide))), h1]

theorem pmc_first (eb : ErrorBound) (v : Nat) : ((PMCMean.new eb).fitValue (FVal.ofBits32 v)).2 = true := by
  have hc : FVal.ofInt f64Fmt ((1 : Nat) : Int) = .fin false 1 := by decide +kernel
  have havg : equalOrNan (FVal.ofBits32 v)
      (PMCMean.average (FVal.add f64Fmt (.fin false 0) (FVal.ofBits32 v)) 1) = true := by
    unfold PMCMean.average
    rw [hc]
    cases h : FVal.ofBits32 v with
    | nan => rfl
    | inf s => cases s <;> rfl
    | fin s q =>
      have hM := mag32_ofBits v h
      simp only [FVal.add, FVal.signed, Bool.false_eq_true, if_false, zero_add]
      rcases hM.nonneg.lt_or_eq with hq | hq
      · rw [show (if s = true then -q else q) = FVal.signed s q from rfl, ofRat_signed hq, round64_mag32 hM]
        simp only [FVal.div, one_ne_zero, if_false, div_one, Bool.bne_false]
        rw [round64_mag32 hM]
        simp only [FVal.convert]
        rw [round_mag32 hM]
        exact equalOrNan_fin.mpr rfl
      · subst hq
        have e : (if s = true then -(0 : ℚ) else 0) = 0 := by cases s <;> simp
        rw [e]
        cases s <;> decide +kernel
  have hmin : (PMCMean.new eb).minValue.min (FVal.ofBits32 v) = FVal.ofBits32 v := rfl
  have hmax : (PMCMean.new eb).maxValue.max (FVal.ofBits32 v) = FVal.ofBits32 v := rfl
  have hw : isValueWithinErrorBound eb (FVal.ofBits32 v)
      (PMCMean.average (FVal.add f64Fmt (.fin false 0) (FVal.ofBits32 v)) 1) = true := by
    unfold isValueWithinErrorBound
    cases eb <;> simp [havg]
  unfold PMCMean.fitValue
  dsimp only
  rw [hmin, hmax]
  simp only [PMCMean.new, Nat.zero_add]
  rw [hw]
  simp

theorem take_succ_map {α β : Type} (f : α → β) (l : List α) (i : Nat) (h : i < l.length) :
    (l.take (i + 1)).map f = (l.take i).map f ++ [f l[i]] := by
  rw [List.take_succ_eq_append_getElem h, List.map_append]
  rfl

theorem acceptAll_nil {σ α : Type} (step : σ → α → σ × Bool) (s : σ) : acceptAll step s [] = some s := rfl

theorem builder_step {start : Nat} {eb : ErrorBound} {all : List (Int × Nat)} {i : Nat} {b : ModelBuilder}
    (h : BuilderInv start eb all i b) (hi : i < all.length)
    (hfirst : i = 0 → b = ModelBuilder.new start eb) :
    BuilderInv start eb all (i + 1) (b.tryToUpdateModels all[i].1 all[i].2).1 := by
  refine ⟨h.start, ?_, ?_⟩
  · obtain ⟨k, hk, hacc, hall, hpos⟩ := h.pmc
    simp only [ModelBuilder.tryToUpdateModels]
    by_cases hc : b.pmcMeanCouldFitAll = true
    · rw [if_pos hc]
      have := hall hc
      subst this
      cases hr : (b.pmcMean.fitValue (FVal.ofBits32 all[k].2)).2 with
      | true =>
        refine ⟨k + 1, le_refl _, ?_, fun _ => rfl, fun _ => by omega⟩
        rw [take_succ_map _ _ _ hi]
        exact acceptAll_append_one _ _ _ _ _ hacc hr
      | false =>
        rw [fitValue_rejected _ _ hr]
        refine ⟨k, by omega, hacc, by simp, fun _ => ?_⟩
        by_contra hk0
        have : k = 0 := by omega
        subst this
        rw [hfirst rfl] at hr
        have := pmc_first eb all[0].2
        simp only [ModelBuilder.new] at hr
        rw [this] at hr; cases hr
    · rw [if_neg hc]
      refine ⟨k, by omega, hacc, by simp, fun _ => ?_⟩
      by_cases h0 : i = 0
      · rw [hfirst h0] at hc; exact absurd rfl hc
      · exact hpos (by omega)
  · obtain ⟨k, hk, hacc, hall, hpos⟩ := h.swing
    simp only [ModelBuilder.tryToUpdateModels]
    by_cases hc : b.swingCouldFitAll = true
    · rw [if_pos hc]
      have := hall hc
      subst this
      cases hr : (b.swing.fitDataPoint f64Ops all[k].1 (FVal.ofBits32 all[k].2)).2 with
      | true =>
        refine ⟨k + 1, le_refl _, ?_, fun _ => rfl, fun _ => by omega⟩
        rw [take_succ_map _ _ _ hi]
        exact acceptAll_append_one _ _ _ _ _ hacc hr
      | false =>
        rw [fitDataPoint_rejected _ _ _ _ hr]
        refine ⟨k, by omega, hacc, by simp, fun _ => ?_⟩
        by_contra hk0
        have : k = 0 := by omega
        subst this
        rw [hfirst rfl] at hr
        simp [ModelBuilder.new, Swing.new, Swing.fitDataPoint] at hr
    · rw [if_neg hc]
      refine ⟨k, by omega, hacc, by simp, fun _ => ?_⟩
      by_cases h0 : i = 0
      · rw [hfirst h0] at hc; exact absurd rfl hc
      · exact hpos (by omega)

theorem fitLoop_inv {start : Nat} {eb : ErrorBound} {all : List (Int × Nat)} (rest : List (Int × Nat)) {i : Nat}
    {b : ModelBuilder} (h : BuilderInv start eb all i b) (hrest : rest = all.drop i) (hi : i ≤ all.length)
    (hfirst : i = 0 → b = ModelBuilder.new start eb) :
    ∃ j ≤ all.length, i ≤ j ∧ (i < all.length → i < j) ∧ BuilderInv start eb all j (fitLoop b rest) := by
  induction rest generalizing i b with
  | nil =>
    refine ⟨i, hi, le_refl _, ?_, h⟩
    intro hlt
    have := congrArg List.length hrest
    simp at this
    omega
  | cons p rest ih =>
    have hlt : i < all.length := by
      by_contra hn
      rw [List.drop_eq_nil_of_le (by omega)] at hrest
      cases hrest
    rw [List.drop_eq_getElem_cons hlt] at hrest
    injection hrest with hp hr
    subst hp
    have hs := builder_step h hlt hfirst
    simp only [fitLoop]
    split
    · obtain ⟨j, h1, h2, _, h4⟩ := ih hs hr (by omega) (by omega)
      exact ⟨j, h1, by omega, fun _ => by omega, h4⟩
    · exact ⟨i + 1, by omega, by omega, fun _ => by omega, hs⟩

theorem builder_new_inv (start : Nat) (eb : ErrorBound) (all : List (Int × Nat)) :
    BuilderInv start eb all 0 (ModelBuilder.new start eb) :=
  ⟨rfl, ⟨0, le_refl _, rfl, fun _ => rfl, by omega⟩, ⟨0, le_refl _, rfl, fun _ => rfl, by omega⟩⟩

/-- A model returned by `fit_next_model` is a constant or linear model that has accepted all the
points it represents. -/
inductive FitResult (eb : ErrorBound) (start : Nat) (pts : List (Int × Nat)) (m : FittedModel) : Prop
  | pmc (p : PMCMean) (k : Nat) (hk : 0 < k) (hk' : k ≤ pts.length) (hlen : p.length = k)
      (hacc : acceptAll PMCMean.fitValue (PMCMean.new eb) ((pts.take k).map fun p => FVal.ofBits32 p.2) = some p)
      (h : m = ModelBuilder.selectPmcMean start p)
  | swing (s : Swing) (k : Nat) (hk : 0 < k) (hk' : k ≤ pts.length) (hlen : s.length = k)
      (hacc : acceptAll (swingStep f64Ops) (Swing.new eb) ((pts.take k).map fun p => (p.1, FVal.ofBits32 p.2)) =
        some s)
      (h : m = ModelBuilder.selectSwing start s)

theorem fitNextModel_result (eb : ErrorBound) (ts : List Int) (vs : List Nat) (i : Nat)
    (hi : i < (ts.zip vs).length) :
    FitResult eb i ((ts.zip vs).drop i) (fitNextModel i eb ts vs) := by
  unfold fitNextModel
  have hpos : 0 < ((ts.zip vs).drop i).length := by rw [List.length_drop]; omega
  obtain ⟨j, h1, _, h3, hinv⟩ := fitLoop_inv ((ts.zip vs).drop i) (builder_new_inv i eb ((ts.zip vs).drop i))
    rfl (Nat.zero_le _) (fun _ => rfl)
  have hj := h3 hpos
  unfold ModelBuilder.finish
  split
  · obtain ⟨k, hk, hacc, _, hkpos⟩ := hinv.swing
    refine FitResult.swing _ k (hkpos hj) (by omega) ?_ hacc ?_
    · have := acceptAll_length (swingStep f64Ops) Swing.length
        (fun s x hx => fitDataPoint_length f64Ops s x.1 x.2 hx) _ _ _ hacc
      rw [this]
      simp only [Swing.new, List.length_map, List.length_take]
      omega
    · rw [hinv.start]
  · obtain ⟨k, hk, hacc, _, hkpos⟩ := hinv.pmc
    refine FitResult.pmc _ k (hkpos hj) (by omega) ?_ hacc ?_
    · have := acceptAll_length PMCMean.fitValue PMCMean.length
        (fun s x hx => by rw [fitValue_length, if_pos hx]) _ _ _ hacc
      rw [this]
      simp only [PMCMean.new, List.length_map, List.length_take]
      omega
    · rw [hinv.start]

theorem goodFit_fitNextModel (eb : ErrorBound) (ts : List Int) (vs : List Nat) (h : ts.length = vs.length) :
    GoodFit (fun i => fitNextModel i eb ts vs) ts.length := by
  intro i hi
  have hz : (ts.zip vs).length = ts.length := by simp [h]
  have hd : ((ts.zip vs).drop i).length = ts.length - i := by rw [List.length_drop, hz]
  rcases fitNextModel_result eb ts vs i (by omega) with ⟨p, k, hk, hk', hlen, _, hm⟩ | ⟨s, k, hk, hk', hlen, _, hm⟩
  · dsimp only
    rw [hm]
    simp only [ModelBuilder.selectPmcMean, hlen]
    exact ⟨trivial, by omega, by omega, by decide⟩
  · dsimp only
    rw [hm]
    simp only [ModelBuilder.selectSwing, hlen]
    exact ⟨trivial, by omega, by omega, by decide⟩

end ModelarDB.Lemmas
