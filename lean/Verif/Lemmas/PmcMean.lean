import Verif.Model.PmcMean
import Verif.Lemmas.Within
import Verif.Spec.Fit
/-
Invariant of the constant model.
-/
namespace ModelarDB.Lemmas
open Model Spec

/-! ### The order on floating-point data -/

theorem fle_refl {a : FVal} (h : a.isNan = false) : a.le a = true := by
  cases a with
  | nan => simp [FVal.isNan] at h
  | inf s => cases s <;> rfl
  | fin s q => rw [le_fin]

theorem fle_trans {a b c : FVal} (h1 : a.le b = true) (h2 : b.le c = true) : a.le c = true := by
  cases a <;> cases b <;> cases c <;>
    simp_all [FVal.le, FVal.lt, FVal.eq]
  case fin.fin.fin s p t q u r =>
    rcases h1 with h1 | h1 <;> rcases h2 with h2 | h2
    · left; exact lt_trans h1 h2
    · left; exact h2 ▸ h1
    · left; exact h1 ▸ h2
    · right; exact h1.trans h2
  all_goals grind

theorem fle_of_not_lt {a b : FVal} (ha : a.isNan = false) (hb : b.isNan = false) (h : b.lt a = false) :
    a.le b = true := by
  cases a <;> cases b <;> simp_all [FVal.le, FVal.lt, FVal.eq, FVal.isNan]
  case fin.fin s p t q => exact h.lt_or_eq
  all_goals grind

theorem fle_of_lt {a b : FVal} (h : a.lt b = true) : a.le b = true := by simp [FVal.le, h]

/-! ### Minimum and maximum of a run -/

/-- `m` is the smallest number of `vs`, NaN if there is none. -/
def IsMin (vs : List FVal) (m : FVal) : Prop :=
  (m = .nan ∧ ∀ v ∈ vs, v.isNan = true) ∨
  (m.isNan = false ∧ m ∈ vs ∧ ∀ v ∈ vs, v.isNan = false → m.le v = true)

/-- `m` is the largest number of `vs`, NaN if there is none. -/
def IsMax (vs : List FVal) (m : FVal) : Prop :=
  (m = .nan ∧ ∀ v ∈ vs, v.isNan = true) ∨
  (m.isNan = false ∧ m ∈ vs ∧ ∀ v ∈ vs, v.isNan = false → v.le m = true)

theorem isNan_eq {a : FVal} (h : a.isNan = true) : a = .nan := by
  cases a <;> simp_all [FVal.isNan]

theorem isMin_step {vs : List FVal} {m : FVal} (h : IsMin vs m) (v : FVal) : IsMin (vs ++ [v]) (m.min v) := by
  unfold FVal.min
  rcases h with ⟨rfl, h⟩ | ⟨h0, h1, h2⟩
  · simp only [FVal.isNan, if_true]
    cases hv : v.isNan with
    | true =>
      left
      refine ⟨isNan_eq hv, ?_⟩
      intro x hx
      rcases List.mem_append.mp hx with hx | hx
      · exact h x hx
      · simp at hx; rw [hx, hv]
    | false =>
      right
      refine ⟨hv, by simp, ?_⟩
      intro x hx hn
      rcases List.mem_append.mp hx with hx | hx
      · rw [h x hx] at hn; cases hn
      · simp at hx; rw [hx]; exact fle_refl hv
  · simp only [h0, Bool.false_eq_true, if_false]
    right
    cases hv : v.isNan with
    | true =>
      simp only [if_true]
      refine ⟨h0, by simp [h1], ?_⟩
      intro x hx hn
      rcases List.mem_append.mp hx with hx | hx
      · exact h2 x hx hn
      · simp at hx; rw [hx, hv] at hn; cases hn
    | false =>
      simp only [Bool.false_eq_true, if_false]
      cases hlt : v.lt m with
      | true =>
        simp only [if_true]
        refine ⟨hv, by simp, ?_⟩
        intro x hx hn
        rcases List.mem_append.mp hx with hx | hx
        · exact fle_trans (fle_of_lt hlt) (h2 x hx hn)
        · simp at hx; rw [hx]; exact fle_refl hv
      | false =>
        simp only [Bool.false_eq_true, if_false]
        refine ⟨h0, by simp [h1], ?_⟩
        intro x hx hn
        rcases List.mem_append.mp hx with hx | hx
        · exact h2 x hx hn
        · simp at hx; rw [hx]; exact fle_of_not_lt h0 hv hlt

theorem isMax_step {vs : List FVal} {m : FVal} (h : IsMax vs m) (v : FVal) : IsMax (vs ++ [v]) (m.max v) := by
  unfold FVal.max
  rcases h with ⟨rfl, h⟩ | ⟨h0, h1, h2⟩
  · simp only [FVal.isNan, if_true]
    cases hv : v.isNan with
    | true =>
      left
      refine ⟨isNan_eq hv, ?_⟩
      intro x hx
      rcases List.mem_append.mp hx with hx | hx
      · exact h x hx
      · simp at hx; rw [hx, hv]
    | false =>
      right
      refine ⟨hv, by simp, ?_⟩
      intro x hx hn
      rcases List.mem_append.mp hx with hx | hx
      · rw [h x hx] at hn; cases hn
      · simp at hx; rw [hx]; exact fle_refl hv
  · simp only [h0, Bool.false_eq_true, if_false]
    right
    cases hv : v.isNan with
    | true =>
      simp only [if_true]
      refine ⟨h0, by simp [h1], ?_⟩
      intro x hx hn
      rcases List.mem_append.mp hx with hx | hx
      · exact h2 x hx hn
      · simp at hx; rw [hx, hv] at hn; cases hn
    | false =>
      simp only [Bool.false_eq_true, if_false]
      cases hlt : m.lt v with
      | true =>
        simp only [if_true]
        refine ⟨hv, by simp, ?_⟩
        intro x hx hn
        rcases List.mem_append.mp hx with hx | hx
        · exact fle_trans (h2 x hx hn) (fle_of_lt hlt)
        · simp at hx; rw [hx]; exact fle_refl hv
      | false =>
        simp only [Bool.false_eq_true, if_false]
        refine ⟨h0, by simp [h1], ?_⟩
        intro x hx hn
        rcases List.mem_append.mp hx with hx | hx
        · exact h2 x hx hn
        · simp at hx; rw [hx]; exact fle_of_not_lt hv h0 hlt

/-! ### The invariant -/

/-- Offer the values one after the other; `none` if one of them is rejected. -/
def pmcFitAll (eb : ErrorBound) (vs : List FVal) : Option PMCMean :=
  acceptAll PMCMean.fitValue (PMCMean.new eb) vs

structure PmcInv (eb : ErrorBound) (vs : List FVal) (p : PMCMean) : Prop where
  bound : p.errorBound = eb
  len : p.length = vs.length
  isMin : IsMin vs p.minValue
  isMax : IsMax vs p.maxValue
  nan : (∃ v ∈ vs, v.isNan = true) → p.sumOfValues = .nan
  within : vs ≠ [] → isValueWithinErrorBound eb p.minValue p.model = true ∧
    isValueWithinErrorBound eb p.maxValue p.model = true

theorem add_nan (fmt : Fmt) (a : FVal) : FVal.add fmt a .nan = .nan := by cases a <;> rfl

theorem fitValue_inv {eb : ErrorBound} {vs : List FVal} {p : PMCMean} (h : PmcInv eb vs p) (v : FVal)
    (hacc : (p.fitValue v).2 = true) : PmcInv eb (vs ++ [v]) (p.fitValue v).1 := by
  unfold PMCMean.fitValue at hacc ⊢
  dsimp only at hacc ⊢
  split at hacc
  · rename_i hc
    rw [if_pos hc]
    rw [h.bound, Bool.and_eq_true] at hc
    refine ⟨h.bound, ?_, isMin_step h.isMin v, isMax_step h.isMax v, ?_, ?_⟩
    · simp [h.len]
    · rintro ⟨x, hx, hn⟩
      dsimp only
      rcases List.mem_append.mp hx with hx | hx
      · rw [h.nan ⟨x, hx, hn⟩]; rfl
      · simp at hx; subst hx
        rw [isNan_eq hn, add_nan]
    · intro _
      exact hc
  · cases hacc

theorem pmcFitAll_inv (eb : ErrorBound) (vs : List FVal) (p : PMCMean) (h : pmcFitAll eb vs = some p) :
    PmcInv eb vs p := by
  induction vs using List.reverseRecOn generalizing p with
  | nil =>
    simp only [pmcFitAll, acceptAll, List.foldlM_nil] at h
    injection h with h
    subst h
    exact ⟨rfl, rfl, Or.inl ⟨rfl, by simp⟩, Or.inl ⟨rfl, by simp⟩, by simp, by simp⟩
  | append_singleton vs v ih =>
    unfold pmcFitAll acceptAll at h ih
    rw [List.foldlM_append] at h
    cases hp : List.foldlM (fun (p : PMCMean) v => if (p.fitValue v).2 then some (p.fitValue v).1 else none)
        (PMCMean.new eb) vs with
    | none => rw [hp] at h; cases h
    | some p' =>
      rw [hp] at h
      simp only [Option.bind_eq_bind, Option.bind_some, List.foldlM_cons, List.foldlM_nil] at h
      split at h
      · rename_i hacc
        injection h with h
        subst h
        exact fitValue_inv (ih p' hp) v hacc
      · cases h

theorem isF32_convert (x : FVal) (hx : ∀ s q, x = .fin s q → 0 ≤ q) : IsF32 (x.convert f32Fmt) := by
  cases x with
  | nan => trivial
  | inf s => trivial
  | fin s q =>
    have hq := hx s q rfl
    simp only [FVal.convert]
    unfold FVal.round
    dsimp only
    split
    · trivial
    · rename_i h
      exact ⟨roundMag_nonneg hq, roundMag_representable (by decide) hq, not_le.mp h⟩

/-- Magnitudes are never negative. -/
def NonnegMag (x : FVal) : Prop := ∀ s q, x = .fin s q → 0 ≤ q

theorem nonneg_round {fmt : Fmt} {s : Bool} {q : ℚ} (hq : 0 ≤ q) : NonnegMag (FVal.round fmt s q) := by
  intro s' q' h
  unfold FVal.round at h
  dsimp only at h
  split at h
  · cases h
  · injection h with _ h; rw [← h]; exact roundMag_nonneg hq

theorem nonneg_div {fmt : Fmt} {a b : FVal} (ha : NonnegMag a) (hb : NonnegMag b) :
    NonnegMag (FVal.div fmt a b) := by
  intro s q h
  cases a with
  | nan => cases h
  | inf u => cases b <;> cases h
  | fin u p =>
    cases b with
    | nan => cases h
    | inf t => injection h with _ h; rw [← h]
    | fin t r =>
      simp only [FVal.div] at h
      split at h
      · split at h <;> cases h
      · exact nonneg_round (div_nonneg (ha _ _ rfl) (hb _ _ rfl)) s q h

theorem nonneg_ofRat {fmt : Fmt} {z : Bool} {x : ℚ} : NonnegMag (FVal.ofRat fmt z x) := by
  intro s q h
  unfold FVal.ofRat at h
  split at h
  · injection h with _ h; rw [← h]
  · split at h
    · exact nonneg_round (by linarith) s q h
    · exact nonneg_round (by linarith) s q h

theorem nonneg_add {fmt : Fmt} (a b : FVal) (_ : NonnegMag a) (_ : NonnegMag b) :
    NonnegMag (FVal.add fmt a b) := by
  intro s q h
  cases a with
  | nan => cases h
  | inf u =>
    cases b with
    | nan => cases h
    | inf t => simp only [FVal.add] at h; split at h <;> cases h
    | fin t r => cases h
  | fin u p =>
    cases b with
    | nan => cases h
    | inf t => cases h
    | fin t r => exact nonneg_ofRat s q h

theorem nonneg_of_isF32 {x : FVal} (h : IsF32 x) : NonnegMag x := by
  rintro s q rfl
  exact h.nonneg

theorem pmcFitAll_sum_nonneg (eb : ErrorBound) (vs : List FVal) (hvs : ∀ v ∈ vs, IsF32 v) (p : PMCMean)
    (h : pmcFitAll eb vs = some p) : NonnegMag p.sumOfValues := by
  induction vs using List.reverseRecOn generalizing p with
  | nil =>
    simp only [pmcFitAll, acceptAll, List.foldlM_nil] at h
    injection h with h
    subst h
    rintro s q h; injection h with _ h; rw [← h]
  | append_singleton vs v ih =>
    unfold pmcFitAll acceptAll at h ih
    rw [List.foldlM_append] at h
    cases hp : List.foldlM (fun (p : PMCMean) v => if (p.fitValue v).2 then some (p.fitValue v).1 else none)
        (PMCMean.new eb) vs with
    | none => rw [hp] at h; cases h
    | some p' =>
      rw [hp] at h
      simp only [Option.bind_eq_bind, Option.bind_some, List.foldlM_cons, List.foldlM_nil] at h
      split at h
      · rename_i hacc
        injection h with h
        subst h
        have h1 := ih (fun v hv => hvs v (by simp [hv])) p' hp
        have h2 : NonnegMag v := nonneg_of_isF32 (hvs v (by simp))
        unfold PMCMean.fitValue
        dsimp only
        split
        · exact nonneg_add _ _ h1 h2
        · exact h1
      · cases h

theorem pmc_model_isF32 (eb : ErrorBound) (vs : List FVal) (hvs : ∀ v ∈ vs, IsF32 v) (p : PMCMean)
    (h : pmcFitAll eb vs = some p) : IsF32 p.model :=
  isF32_convert _ (nonneg_div (pmcFitAll_sum_nonneg eb vs hvs p h) nonneg_ofRat)

theorem signed_le {s t : Bool} {p q : ℚ} (h : (FVal.fin s p).le (.fin t q) = true) : ratOf s p ≤ ratOf t q := by
  rwa [le_fin] at h

/-- A value that lies between two values represented by `a` within a relative error bound below 100
percent is represented by `a` within the error bound. -/
theorem relative_between {m v M a c : ℚ} (hc0 : 0 ≤ c) (hc : c < 1) (h1 : m ≤ v) (h2 : v ≤ M)
    (hm : |m - a| ≤ c * |m|) (hM : |M - a| ≤ c * |M|) : |v - a| ≤ c * |v| := by
  have hm' := abs_le.mp hm
  have hM' := abs_le.mp hM
  rcases lt_trichotomy a 0 with ha | ha | ha
  · -- everything is negative
    have hMneg : M < 0 := by
      by_contra hn
      rw [abs_of_nonneg (not_lt.mp hn)] at hM'
      nlinarith [not_lt.mp hn]
    have hvneg : v < 0 := by linarith
    have hmneg : m < 0 := by linarith
    rw [abs_of_neg hMneg] at hM'
    rw [abs_of_neg hmneg] at hm'
    rw [abs_of_neg hvneg, abs_le]
    constructor <;> nlinarith
  · subst ha
    simp only [sub_zero] at hm hM ⊢
    have hm0 : m = 0 := by
      by_contra h0
      have := abs_pos.mpr h0
      nlinarith
    have hM0 : M = 0 := by
      by_contra h0
      have := abs_pos.mpr h0
      nlinarith
    have : v = 0 := by linarith
    simp [this]
  · have hmpos : 0 < m := by
      by_contra hn
      rw [abs_of_nonpos (not_lt.mp hn)] at hm'
      nlinarith [not_lt.mp hn]
    have hvpos : 0 < v := by linarith
    have hMpos : 0 < M := by linarith
    rw [abs_of_pos hMpos] at hM'
    rw [abs_of_pos hmpos] at hm'
    rw [abs_of_pos hvpos, abs_le]
    constructor <;> nlinarith

theorem absolute_between {m v M a c : ℚ} (h1 : m ≤ v) (h2 : v ≤ M)
    (hm : |m - a| ≤ c) (hM : |M - a| ≤ c) : |v - a| ≤ c := by
  have hm' := abs_le.mp hm
  have hM' := abs_le.mp hM
  rw [abs_le]
  constructor <;> linarith

/-- The numbers between two numbers that are represented within the error bound are represented
within the error bound. -/
theorem within_between (eb : ErrorBound) (hvalid : ValidErrorBound eb)
    (hrel : ∀ s r, eb = .relative (.fin s r) → r / 100 * (1 + 1 / 2 ^ 22) < 1) {m v M a : FVal}
    (hm : m.isNan = false) (h1 : m.le v = true) (h2 : v.le M = true)
    (w1 : WithinExact eb m a) (w2 : WithinExact eb M a) : WithinExact eb v a := by
  cases a with
  | nan => cases m <;> simp_all [WithinExact, FVal.isNan]
  | inf s =>
    cases m with
    | nan => simp [FVal.isNan] at hm
    | fin t q => simp [WithinExact] at w1
    | inf t =>
      cases M with
      | nan => cases v <;> simp [FVal.le, FVal.lt, FVal.eq] at h2
      | fin t q => simp [WithinExact] at w2
      | inf u =>
        simp only [WithinExact] at w1 w2
        subst w1 w2
        cases v with
        | nan => simp [FVal.le, FVal.lt, FVal.eq] at h2
        | inf w => cases w <;> cases u <;> simp_all [FVal.le, FVal.lt, FVal.eq, WithinExact]
        | fin w q => cases u <;> simp_all [FVal.le, FVal.lt, FVal.eq]
  | fin s q =>
    cases m with
    | nan => simp [FVal.isNan] at hm
    | inf t => simp [WithinExact] at w1
    | fin t r =>
      cases M with
      | nan => cases v <;> simp [FVal.le, FVal.lt, FVal.eq] at h2
      | inf u => simp [WithinExact] at w2
      | fin u x =>
        cases v with
        | nan => simp [FVal.le, FVal.lt, FVal.eq] at h2
        | inf w => cases w <;> simp_all [FVal.le, FVal.lt, FVal.eq]
        | fin w y =>
          have h1 := signed_le h1
          have h2 := signed_le h2
          rcases valid_cases hvalid with rfl | ⟨b, hb, hb0, rfl⟩ | ⟨p, hp, hp0, hp100, rfl⟩
          · simp only [WithinExact] at w1 w2 ⊢
            linarith
          · simp only [WithinExact] at w1 w2 ⊢
            exact absolute_between h1 h2 w1 w2
          · simp only [WithinExact] at w1 w2 ⊢
            have hc := hrel _ _ rfl
            have e : ∀ z : ℚ, p / 100 * |z| * (1 + 1 / 2 ^ 22) = p / 100 * (1 + 1 / 2 ^ 22) * |z| := by
              intro z; ring
            rw [e] at w1 w2 ⊢
            exact relative_between (by positivity) hc h1 h2 w1 w2

theorem check_absolute_fin {b : ℚ} (hb : Mag32 b) {s t : Bool} {p q : ℚ} :
    isValueWithinErrorBound (.absolute (.fin false b)) (.fin s p) (.fin t q) = true ↔
      roundMag f32Fmt |ratOf s p - ratOf t q| ≤ b := by
  unfold isValueWithinErrorBound
  dsimp only
  split
  · rename_i he
    rw [equalOrNan_fin, signed_eq_ratOf, signed_eq_ratOf] at he
    rw [he, sub_self, abs_zero, roundMag_zero]
    simp [hb.nonneg]
  · rw [sub_fin, abs_ofRat, signed_eq_ratOf, signed_eq_ratOf]
    have h2 : b < pow2 f32Fmt.emax := hb.lt
    split
    · rename_i h
      rw [le_inf_fin]
      simp only [Bool.false_eq_true, false_iff, not_le]
      linarith
    · rw [le_fin_pos]

/-- The check of an absolute error bound is decided by the largest deviation. -/
theorem check_between (eb : ErrorBound) (hvalid : ValidErrorBound eb) (hnrel : ∀ r, eb ≠ .relative r)
    {m v M a : FVal}
    (hm : m.isNan = false) (h1 : m.le v = true) (h2 : v.le M = true)
    (w1 : isValueWithinErrorBound eb m a = true) (w2 : isValueWithinErrorBound eb M a = true) :
    isValueWithinErrorBound eb v a = true := by
  rcases valid_cases hvalid with rfl | ⟨b, hb, hb0, rfl⟩ | ⟨p, hp, hp0, hp100, rfl⟩
  · simp only [isValueWithinErrorBound] at *
    cases a <;> cases m <;> cases v <;> cases M <;>
      simp_all [equalOrNan, FVal.eq, FVal.isNan, FVal.le, FVal.lt]
    case fin.fin.fin.fin =>
      rcases h1 with h1 | h1 <;> rcases h2 with h2 | h2 <;> linarith
    all_goals grind
  · cases a with
    | nan =>
      cases m <;> simp_all [isValueWithinErrorBound, equalOrNan, FVal.eq, FVal.isNan, FVal.sub, FVal.add,
        FVal.neg, FVal.abs, FVal.le, FVal.lt]
    | inf s =>
      cases m <;> cases v <;> cases M <;>
        simp_all [isValueWithinErrorBound, equalOrNan, FVal.eq, FVal.isNan, FVal.sub, FVal.add,
        FVal.neg, FVal.abs, FVal.le, FVal.lt] <;> grind
    | fin s q =>
      cases m with
      | nan => simp [FVal.isNan] at hm
      | inf t =>
        simp [isValueWithinErrorBound, equalOrNan, FVal.eq, FVal.isNan, FVal.sub, FVal.add,
          FVal.neg, FVal.abs, FVal.le, FVal.lt] at w1
      | fin t r =>
        cases M with
        | nan => cases v <;> simp [FVal.le, FVal.lt, FVal.eq] at h2
        | inf u =>
          simp [isValueWithinErrorBound, equalOrNan, FVal.eq, FVal.isNan, FVal.sub, FVal.add,
            FVal.neg, FVal.abs, FVal.le, FVal.lt] at w2
        | fin u x =>
          cases v with
          | nan => simp [FVal.le, FVal.lt, FVal.eq] at h2
          | inf w => cases w <;> simp_all [FVal.le, FVal.lt, FVal.eq]
          | fin w y =>
            have h1 := signed_le h1
            have h2 := signed_le h2
            rw [check_absolute_fin hb] at w1 w2 ⊢
            rcases le_total (ratOf w y) (ratOf s q) with h | h
            · refine le_trans (roundMag_mono (by decide) (abs_nonneg _) ?_) w1
              rw [abs_of_nonpos (by linarith), abs_of_nonpos (by linarith)]
              linarith
            · refine le_trans (roundMag_mono (by decide) (abs_nonneg _) ?_) w2
              rw [abs_of_nonneg (by linarith), abs_of_nonneg (by linarith)]
              linarith
  · exact absurd rfl (hnrel _)

/-- The check never relates a number and NaN. -/
theorem check_nan (eb : ErrorBound) (hvalid : ValidErrorBound eb) {m : FVal}
    (h : isValueWithinErrorBound eb m .nan = true) : m = .nan := by
  rcases valid_cases hvalid with rfl | ⟨b, hb, hb0, rfl⟩ | ⟨p, hp, hp0, hp100, rfl⟩ <;>
    cases m <;> simp_all [isValueWithinErrorBound, equalOrNan, FVal.eq, FVal.isNan, FVal.sub, FVal.add,
        FVal.neg, FVal.abs, FVal.le, FVal.lt, FVal.div, FVal.mul]

/-- An accepted run is NaN throughout or contains no NaN. -/
theorem pmc_nan (eb : ErrorBound) (hvalid : ValidErrorBound eb) (vs : List FVal) (p : PMCMean)
    (h : PmcInv eb vs p) : (∀ v ∈ vs, v = .nan) ∧ (vs ≠ [] → p.model = .nan) ∨
      (∀ v ∈ vs, v.isNan = false) := by
  by_cases hn : ∃ v ∈ vs, v.isNan = true
  · left
    have hmodel : p.model = .nan := by
      unfold PMCMean.model PMCMean.average
      rw [h.nan hn]; rfl
    have hne : vs ≠ [] := by rintro rfl; simp at hn
    have hmin := check_nan eb hvalid (hmodel ▸ (h.within hne).1)
    rcases h.isMin with ⟨_, h2⟩ | ⟨h2, _⟩
    · exact ⟨fun v hv => isNan_eq (h2 v hv), fun _ => hmodel⟩
    · rw [hmin] at h2; simp [FVal.isNan] at h2
  · right
    intro v hv
    by_contra hc
    exact hn ⟨v, hv, by simpa using hc⟩

end ModelarDB.Lemmas
