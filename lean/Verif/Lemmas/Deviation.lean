import Verif.Lemmas.Swing
/-
The deviation that is allowed at a value, and the linear model without rounding.
-/
namespace ModelarDB.Lemmas
open Model Spec

theorem mag32_ge {q : ℚ} (h : Mag32 q) (hpos : 0 < q) : pow2 (-149) ≤ q := by
  obtain ⟨n, hn⟩ := multiple_of_rep h.rep
  have hp := pow2_pos (-149)
  have h1 : 0 < n := by
    by_contra hc
    have : (n : ℚ) ≤ 0 := by exact_mod_cast not_lt.mp hc
    nlinarith
  have : (1 : ℚ) ≤ n := by exact_mod_cast h1
  rw [hn]
  nlinarith

/-- The deviation used by the linear model is at most `deviationBound` of the value. -/
def deviationBound (eb : ErrorBound) (q : ℚ) : ℚ :=
  match eb with
  | .absolute (.fin _ b) => b * (991 / 1000)
  | .relative (.fin _ r) => r / 100 * q * (9995 / 10000)
  | _ => 0

theorem c99_le : roundMag f64Fmt (99 / 100) ≤ 9905 / 10000 := by decide +kernel

theorem deviation_is {eb : ErrorBound} (hvalid : ValidErrorBound eb) (s : Bool) {q : ℚ} (hq : Mag32 q) :
    ∃ δ, maximumAllowedDeviation eb (.fin s q) = .fin false δ ∧ 0 ≤ δ ∧ δ ≤ deviationBound eb q := by
  rcases valid_cases hvalid with rfl | ⟨b, hb, hb0, rfl⟩ | ⟨p, hp, hp0, hp100, rfl⟩
  · exact ⟨0, rfl, le_rfl, le_rfl⟩
  · obtain ⟨c1, c2⟩ := c99_bounds
    have c3 := c99_le
    have e := c99_ofRat
    generalize roundMag f64Fmt (99 / 100) = c at *
    have hbc0 : 0 ≤ b * c := mul_nonneg hb.nonneg (by linarith)
    have hlow : pow2 (-1022) ≤ b * c := by
      have h1 := mag32_ge hb hb0
      have h2 : pow2 (-149) = pow2 (-150) * 2 := by rw [show (-149 : Int) = -150 + 1 from rfl, pow2_succ]; ring
      have h3 : pow2 (-1022) ≤ pow2 (-150) := pow2_le (by decide)
      have := pow2_pos (-150)
      nlinarith
    have h1 := roundMag64_up hlow
    have e53 : pow2 (-53) = 1 / 2 ^ 53 := by rw [pow2_eq]; norm_num
    rw [e53] at h1
    have h2 : roundMag f64Fmt (b * c) ≤ b * (991 / 1000) := by
      refine le_trans h1 ?_
      have : b * c ≤ b * (9905 / 10000) := mul_le_mul_of_nonneg_left c3 hb0.le
      have h4 : b * c * (1 + 1 / 2 ^ 53) ≤ b * (9905 / 10000) * (1 + 1 / 2 ^ 53) :=
        mul_le_mul_of_nonneg_right this (by norm_num)
      refine le_trans h4 ?_
      rw [mul_assoc]
      exact mul_le_mul_of_nonneg_left (by norm_num) hb0.le
    refine ⟨roundMag f64Fmt (b * c), ?_, roundMag_nonneg hbc0, h2⟩
    unfold maximumAllowedDeviation
    rw [e]
    simp only [FVal.mul, Bool.xor_self]
    rw [round_of_lt]
    refine lt_of_le_of_lt h2 (lt_of_le_of_lt (?_ : _ ≤ b) (lt_trans hb.lt (pow2_lt (by decide))))
    linarith
  · obtain ⟨c1, c2⟩ := c1001_bounds
    have e := c1001_ofRat
    generalize roundMag f64Fmt (1001 / 10) = c at *
    have hcpos : 0 < c := by linarith
    have e53 : pow2 (-53) = 1 / 2 ^ 53 := by rw [pow2_eq]; norm_num
    have hplo := mag32_ge hp hp0
    have hlow1 : pow2 (-156) ≤ p / c := by
      rw [le_div_iff₀ hcpos]
      have e : pow2 (-149) = pow2 (-156) * 128 := by simp only [pow2_eq]; norm_num
      rw [e] at hplo
      have := pow2_pos (-156)
      nlinarith
    have hup1 : p / c ≤ p / (10009 / 100) := div_le_div_of_nonneg_left hp0.le (by norm_num) c1
    obtain ⟨d, hd⟩ : ∃ d, d = roundMag f64Fmt (p / c) := ⟨_, rfl⟩
    have hdlo : pow2 (-156) ≤ d := by
      rw [hd]; exact le_roundMag (by decide) (pow2_pos _).le hlow1 (representable_pow2 (by decide) (by decide))
    have hdup : d ≤ p / (10009 / 100) * (1 + pow2 (-53)) := by
      rw [hd]
      refine le_trans (roundMag64_up (le_trans (pow2_le (by decide)) hlow1)) ?_
      exact mul_le_mul_of_nonneg_right hup1 (by have := pow2_pos (-53); linarith)
    have hdpos : 0 < d := lt_of_lt_of_le (pow2_pos _) hdlo
    have hq0 := hq.nonneg
    obtain ⟨g, hg⟩ : ∃ g, g = roundMag f64Fmt (q * d) := ⟨_, rfl⟩
    have hgup : g ≤ q * d * (1 + pow2 (-53)) := by
      rw [hg]
      rcases hq0.lt_or_eq with hqpos | hqz
      · refine roundMag64_up ?_
        have h1 := mag32_ge hq hqpos
        calc pow2 (-1022) ≤ pow2 (-149) * pow2 (-156) := by rw [← pow2_add]; exact pow2_le (by decide)
          _ ≤ q * d := mul_le_mul h1 hdlo (pow2_pos _).le hq0
      · rw [← hqz]; simp [roundMag_zero]
    have hg0 : 0 ≤ g := by rw [hg]; exact roundMag_nonneg (mul_nonneg hq0 hdpos.le)
    have hfin : g ≤ p / 100 * q * (9995 / 10000) := by
      rw [e53] at hdup hgup
      have s1 : q * d ≤ q * (p / (10009 / 100) * (1 + 1 / 2 ^ 53)) := mul_le_mul_of_nonneg_left hdup hq0
      have s2 : g ≤ q * (p / (10009 / 100) * (1 + 1 / 2 ^ 53)) * (1 + 1 / 2 ^ 53) :=
        le_trans hgup (mul_le_mul_of_nonneg_right s1 (by norm_num))
      refine le_trans s2 ?_
      have e1 : q * (p / (10009 / 100) * (1 + 1 / 2 ^ 53)) * (1 + 1 / 2 ^ 53) =
          (q * p) * ((100 / 10009) * (1 + 1 / 2 ^ 53) * (1 + 1 / 2 ^ 53)) := by ring
      have e2 : p / 100 * q * (9995 / 10000) = (q * p) * (9995 / 1000000) := by ring
      rw [e1, e2]
      exact mul_le_mul_of_nonneg_left (by norm_num) (mul_nonneg hq0 hp0.le)
    have hgq : g ≤ q := by
      refine le_trans hfin ?_
      have : p / 100 * (9995 / 10000) ≤ 1 := by linarith
      nlinarith
    refine ⟨g, ?_, hg0, hfin⟩
    unfold maximumAllowedDeviation
    rw [e]
    simp only [FVal.div, if_neg (ne_of_gt hcpos), Bool.xor_self]
    have hd1 : d < pow2 f64Fmt.emax := by
      refine lt_of_le_of_lt hdup ?_
      have : p / (10009 / 100) * (1 + pow2 (-53)) ≤ pow2 1 := by
        rw [e53, pow2_eq]
        rw [div_mul_eq_mul_div, div_le_iff₀ (by norm_num)]
        norm_num
        linarith
      exact lt_of_le_of_lt this (pow2_lt (by decide))
    rw [round_of_lt (by rw [← hd]; exact hd1), ← hd]
    simp only [FVal.mul, Bool.xor_false]
    rw [round_of_lt (by rw [← hg]; exact lt_of_le_of_lt hgq (lt_trans hq.lt (pow2_lt (by decide)))), ← hg]
    simp only [FVal.abs]

/-- A value within the deviation is within the error bound. -/
theorem withinExact_of_deviation {eb : ErrorBound} (hvalid : ValidErrorBound eb) {s : Bool} {q : ℚ} (hq : 0 ≤ q)
    {x : FVal} {r : ℚ} (hx : Is x r) (h : |ratOf s q - r| ≤ deviationBound eb q) : WithinExact eb (.fin s q) x := by
  obtain ⟨t, m, rfl, rfl⟩ := hx
  rcases valid_cases hvalid with rfl | ⟨b, hb, hb0, rfl⟩ | ⟨p, hp, hp0, hp100, rfl⟩
  · have := abs_nonpos_iff.mp h
    exact sub_eq_zero.mp this
  · simp only [deviationBound] at h
    simp only [WithinExact]
    refine le_trans h (mul_le_mul_of_nonneg_left (by norm_num) hb0.le)
  · simp only [deviationBound] at h
    simp only [WithinExact]
    rw [← signed_eq_ratOf s q, abs_signed hq]
    refine le_trans h (mul_le_mul_of_nonneg_left (by norm_num) (by positivity))

/-! ### Exact arithmetic -/

theorem is_exact (q : ℚ) : Is (FVal.exact q) q := by
  unfold FVal.exact
  split
  · exact ⟨true, -q, rfl, by simp [ratOf]⟩
  · exact ⟨false, q, rfl, by simp [ratOf]⟩

theorem exact_add {x y : FVal} {p q : ℚ} (hx : Is x p) (hy : Is y q) : Is (exactOps.add x y) (p + q) := by
  obtain ⟨s, m, rfl, rfl⟩ := hx
  obtain ⟨t, n, rfl, rfl⟩ := hy
  exact is_exact _

theorem exact_sub {x y : FVal} {p q : ℚ} (hx : Is x p) (hy : Is y q) : Is (exactOps.sub x y) (p - q) := by
  obtain ⟨s, m, rfl, rfl⟩ := hx
  obtain ⟨t, n, rfl, rfl⟩ := hy
  exact is_exact _

theorem exact_mul {x y : FVal} {p q : ℚ} (hx : Is x p) (hy : Is y q) : Is (exactOps.mul x y) (p * q) := by
  obtain ⟨s, m, rfl, rfl⟩ := hx
  obtain ⟨t, n, rfl, rfl⟩ := hy
  exact is_exact _

theorem exact_div {x y : FVal} {p q : ℚ} (hx : Is x p) (hy : Is y q) (hq : q ≠ 0) : Is (exactOps.div x y) (p / q) := by
  obtain ⟨s, m, rfl, rfl⟩ := hx
  obtain ⟨t, n, rfl, rfl⟩ := hy
  have : (FVal.fin t n).eq (.fin false 0) = false := by
    simp only [FVal.eq, decide_eq_false_iff_not]
    exact hq
  simp only [exactOps]
  rw [this, if_neg (by simp)]
  exact is_exact _

theorem exact_ofInt (n : Int) : Is (exactOps.ofInt n) n := is_exact _

/-- The line through two points. -/
theorem exact_line {t0 t : Int} {x0 w : FVal} {v0 q : ℚ} (hx : Is x0 v0) (hw : Is w q) (ht : t0 < t) (hd : t - t0 < 2 ^ 63) :
    ∃ σ, Is (computeSlopeAndIntercept exactOps t0 x0 t w).1 σ ∧
      Is (computeSlopeAndIntercept exactOps t0 x0 t w).2 (v0 - σ * t0) ∧ v0 + σ * (t - t0) = q := by
  unfold computeSlopeAndIntercept
  rw [hx.equalOrNan hw]
  by_cases h : v0 = q
  · refine ⟨0, ?_, ?_, by simp [h]⟩
    · simp only [h, decide_true, if_true]; exact ⟨false, 0, rfl, rfl⟩
    · simp only [h, decide_true, if_true]; simpa [← h] using hx
  · have hw' : wrapI64 (t - t0) = t - t0 := wrapI64_of_range (by unfold IsI64; omega)
    have hne : ((t : ℚ) - t0) ≠ 0 := by
      have : (t0 : ℚ) < t := by exact_mod_cast ht
      linarith
    have hs : Is (exactOps.div (exactOps.sub w x0) (exactOps.ofInt (wrapI64 (t - t0)))) ((q - v0) / (t - t0)) := by
      refine exact_div (exact_sub hw hx) ?_ hne
      rw [hw']; simpa using exact_ofInt (t - t0)
    refine ⟨(q - v0) / (t - t0), ?_, ?_, ?_⟩
    · simpa [h] using hs
    · simpa [h] using exact_sub hx (exact_mul hs (exact_ofInt t0))
    · rw [div_mul_cancel₀ _ hne]; ring

theorem exact_lineAt {a b : FVal} {σ v0 : ℚ} {t0 : Int} (ha : Is a σ) (hb : Is b (v0 - σ * t0)) (t : Int) :
    Is (lineAt exactOps a b t) (v0 + σ * (t - t0)) := by
  have := exact_add (exact_mul ha (exact_ofInt t)) hb
  rw [show v0 + σ * ((t : ℚ) - t0) = σ * t + (v0 - σ * t0) by ring]
  exact this

theorem near_of_is {x : FVal} {q : ℚ} (h : Is x q) : Near x q 0 := ⟨q, h, by simp⟩

/-- Points that the linear model without rounding can be used for. -/
structure ExactAdm (eb : ErrorBound) (t0 : Int) (p : Pt) : Prop where
  after : t0 < p.t
  range : p.t - t0 < 2 ^ 63
  value : Is p.x p.v
  dev : p.d = maximumAllowedDeviation eb p.x
  isDev : Is p.d p.δ
  nonneg : 0 ≤ p.δ

theorem exact_acc {eb : ErrorBound} {t0 : Int} {x0 : FVal} {v0 : ℚ} (hx : Is x0 v0) :
    SwingAcc exactOps t0 x0 v0 eb (ExactAdm eb t0) 0 (fun _ => True) := by
  have line : ∀ p, ExactAdm eb t0 p → ∀ w q, Is w q →
      ∃ σ, LineOK exactOps t0 v0 (ExactAdm eb t0) 0 (fun _ => True) (computeSlopeAndIntercept exactOps t0 x0 p.t w) σ ∧
        |v0 + σ * (p.t - t0) - q| ≤ 0 := by
    intro p hp w q hw
    obtain ⟨σ, h1, h2, h3⟩ := exact_line hx hw hp.after hp.range
    refine ⟨σ, ⟨h1, trivial, fun p' hp' => ?_, fun p' hp' => ?_⟩, by rw [h3]; simp⟩
    · exact near_of_is (exact_add (exact_lineAt h1 h2 p'.t) hp'.isDev)
    · exact near_of_is (exact_sub (exact_lineAt h1 h2 p'.t) hp'.isDev)
  exact ⟨hx, le_rfl, fun p hp => hp.after, fun p hp => hp.value, fun p hp => hp.dev, fun p hp => hp.nonneg,
    fun p hp => line p hp _ _ (exact_add hp.value hp.isDev), fun p hp => line p hp _ _ (exact_sub hp.value hp.isDev)⟩

/-! ### Data that are not finite -/

/-- The operations on data that are not finite. -/
structure NonFinite (ops : FloatOps) : Prop where
  div_zero : ops.div (.fin false 0) (.fin false 0) = .nan
  mul_inf : ∀ s n, 0 < n → n < 2 ^ 63 → ops.mul (.inf s) (ops.ofInt n) = .inf s
  add_inf : ∀ s, ops.add (.inf s) (.inf s) = .inf s
  toValue_inf : ∀ s, ops.toValue (.inf s) = .inf s
  mul_zero : ∀ n, IsI64 n → (ops.mul (.fin false 0) (ops.ofInt n)).isFinite = true
  add_fin_inf : ∀ x s, x.isFinite = true → ops.add x (.inf s) = .inf s
  add_nan : ∀ x, ops.add x .nan = .nan
  toValue_nan : ops.toValue .nan = .nan

theorem nonFinite_exact : NonFinite exactOps where
  div_zero := rfl
  mul_inf s n h _ := by
    have : (n : ℚ) ≠ 0 := by exact_mod_cast h.ne'
    have h0 : ¬ (n : ℚ) < 0 := by
      have : (0 : ℚ) < n := by exact_mod_cast h
      linarith
    simp only [exactOps, FVal.exact, if_neg h0]
    simp [FVal.exactOp, FVal.mul, this]
  add_inf s := by simp [exactOps, FVal.exactOp, FVal.add]
  toValue_inf s := rfl
  mul_zero n _ := by
    obtain ⟨s, m, h, _⟩ := exact_ofInt n
    rw [h]
    simp only [exactOps, FVal.exactOp]
    exact (is_exact _).isFinite
  add_fin_inf x s h := by cases x <;> simp_all [FVal.isFinite, exactOps, FVal.exactOp, FVal.add]
  add_nan x := by cases x <;> rfl
  toValue_nan := rfl

theorem ofInt64_pos {n : Int} (h : 0 < n) (h2 : n < 2 ^ 63) : ∃ m, FVal.ofInt f64Fmt n = .fin false m ∧ 0 < m := by
  have h0 : (1 : ℚ) ≤ n := by exact_mod_cast h
  have h3 : (n : ℚ) ≤ pow2 63 := by
    have : ((63 : Nat) : Int) = 63 := rfl
    rw [← this, pow2_natCast]
    exact_mod_cast h2.le
  have h1 : (1 : ℚ) ≤ roundMag f64Fmt n := by
    have := le_roundMag (fmt := f64Fmt) (p := pow2 0) (q := n) (by decide) (pow2_pos _).le (by rw [pow2_zero]; exact h0)
      (representable_pow2 (by decide) (by decide))
    rwa [pow2_zero] at this
  have h4 : roundMag f64Fmt (n : ℚ) ≤ pow2 63 :=
    roundMag_le (by decide) (by linarith) h3 (representable_pow2 (by decide) (by decide))
  refine ⟨roundMag f64Fmt n, ?_, by linarith⟩
  unfold FVal.ofInt FVal.ofRat
  rw [if_neg (by linarith), if_neg (by linarith), round_of_lt]
  exact lt_of_le_of_lt h4 (pow2_lt (by decide))

theorem ofInt64_fin {n : Int} (h : IsI64 n) : ∃ s m, FVal.ofInt f64Fmt n = .fin s m := by
  rcases lt_trichotomy n 0 with hn | hn | hn
  · have h0 : (n : ℚ) < 0 := by exact_mod_cast hn
    have h3 : -(n : ℚ) ≤ pow2 63 := by
      have : ((63 : Nat) : Int) = 63 := rfl
      rw [← this, pow2_natCast]
      unfold IsI64 at h
      have : -n ≤ 2 ^ 63 := by omega
      exact_mod_cast this
    have h4 : roundMag f64Fmt (-(n : ℚ)) ≤ pow2 63 :=
      roundMag_le (by decide) (by linarith) h3 (representable_pow2 (by decide) (by decide))
    refine ⟨true, roundMag f64Fmt (-(n : ℚ)), ?_⟩
    unfold FVal.ofInt FVal.ofRat
    rw [if_neg (by linarith), if_pos (by linarith), round_of_lt]
    exact lt_of_le_of_lt h4 (pow2_lt (by decide))
  · subst hn; exact ⟨false, 0, by simp [FVal.ofInt, FVal.ofRat]⟩
  · obtain ⟨m, h, _⟩ := ofInt64_pos hn (by unfold IsI64 at h; omega)
    exact ⟨false, m, h⟩

theorem nonFinite_f64 : NonFinite f64Ops where
  div_zero := by decide +kernel
  mul_inf s n h h2 := by
    obtain ⟨m, hm, hpos⟩ := ofInt64_pos h h2
    simp only [f64Ops]
    rw [hm]
    simp [FVal.mul, hpos.ne']
  add_inf s := by simp [f64Ops, FVal.add]
  toValue_inf s := rfl
  mul_zero n hn := by
    simp only [f64Ops]
    obtain ⟨s, m, h⟩ := ofInt64_fin hn
    rw [h]
    simp only [FVal.mul, zero_mul, FVal.round, roundMag_zero]
    rw [if_neg (not_le.mpr (pow2_pos _))]
    rfl
  add_fin_inf x s h := by cases x <;> simp_all [FVal.isFinite, f64Ops, FVal.add]
  add_nan x := by cases x <;> rfl
  toValue_nan := rfl

/-- The state after points with a first value that is not finite. -/
structure NonFiniteInv (t0 : Int) (x0 : FVal) (rest : List (Int × FVal)) (s : Swing) : Prop where
  start : s.startTime = t0
  stop : s.endTime = (rest.map Prod.fst).getLastD t0
  first : s.firstValue = x0
  length : s.length = rest.length + 1
  num : s.numerator = .fin false 0
  den : s.denominator = .fin false 0
  slopes : rest ≠ [] → s.upperSlope = x0 ∧ s.lowerSlope = x0
  values : ∀ p ∈ rest, p.2 = x0

theorem equalOrNan_nonFinite {a b : FVal} (ha : a.isFinite = false) (h : equalOrNan a b = true) : b = a := by
  cases a <;> cases b <;> simp_all [equalOrNan, FVal.eq, FVal.isNan, FVal.isFinite]

theorem nonFinite_acceptAll {ops : FloatOps} {t0 : Int} {x0 : FVal} {eb : ErrorBound} (hx : x0.isFinite = false)
    (rest : List (Int × FVal)) {s : Swing}
    (h : acceptAll (swingStep ops) (Swing.new eb) ((t0, x0) :: rest) = some s) : NonFiniteInv t0 x0 rest s := by
  induction rest using List.reverseRecOn generalizing s with
  | nil =>
    simp only [acceptAll, swingStep, List.foldlM_cons, List.foldlM_nil, Swing.fitDataPoint, Swing.new, if_true] at h
    simp at h
    subst h
    exact ⟨rfl, rfl, rfl, rfl, rfl, rfl, fun h => absurd rfl h, by simp⟩
  | append_singleton rest p ih =>
    rw [← List.cons_append] at h
    unfold acceptAll at h ih
    rw [List.foldlM_append] at h
    cases hs : List.foldlM (fun s x => if (swingStep ops s x).2 then some (swingStep ops s x).1 else none) (Swing.new eb)
        ((t0, x0) :: rest) with
    | none => rw [hs] at h; cases h
    | some s' =>
      rw [hs] at h
      simp only [Option.bind_eq_bind, Option.bind_some, List.foldlM_cons, List.foldlM_nil] at h
      have hinv := ih hs
      have hlen0 : ¬ s'.length = 0 := by rw [hinv.length]; omega
      split at h
      · rename_i ha
        injection h with h
        subst h
        unfold swingStep Swing.fitDataPoint at ha ⊢
        dsimp only at ha ⊢
        rw [if_neg hlen0, hinv.first, hx, if_pos (by simp)] at ha ⊢
        split at ha
        · rename_i heq
          have hp := equalOrNan_nonFinite hx heq
          rw [if_pos heq]
          refine ⟨hinv.start, by simp, rfl, by simp [hinv.length], hinv.num, hinv.den, fun _ => ⟨hp, hp⟩, ?_⟩
          intro q hq
          rcases List.mem_append.mp hq with hq | hq
          · exact hinv.values q hq
          · rw [List.mem_singleton] at hq; subst hq; exact hp
        · cases ha
      · cases h

theorem nonFinite_model {ops : FloatOps} (hops : NonFinite ops) {t0 : Int} {x0 : FVal}
    (hx : x0.isFinite = false) {rest : List (Int × FVal)} (hne : rest ≠ []) {s : Swing}
    (hinv : NonFiniteInv t0 x0 rest s) (hpos : t0 < s.endTime) (hspan : s.endTime - t0 < 2 ^ 63) : s.model ops = (x0, x0) := by
  obtain ⟨hu, hl⟩ := hinv.slopes hne
  have hw : wrapI64 (s.endTime - t0) = s.endTime - t0 := wrapI64_of_range (by unfold IsI64; omega)
  unfold Swing.model Swing.slope
  rw [hu, hl, hinv.num, hinv.den, hops.div_zero, hinv.first, hinv.start, hw]
  cases x0 with
  | nan =>
    dsimp only
    rw [hops.add_nan, hops.toValue_nan]
  | inf sg =>
    dsimp only
    have : (FVal.inf sg).max (FVal.nan.min (.inf sg)) = .inf sg := by cases sg <;> rfl
    rw [this, hops.mul_inf sg _ (by omega) hspan, hops.add_inf, hops.toValue_inf]
  | fin sg q => cases hx

/-- Values that are not finite are read back as they are. -/
theorem nonFinite_grid {ops : FloatOps} (hops : NonFinite ops) {t0 : Int} {x0 : FVal}
    (hx : x0.isFinite = false) {rest : List (Int × FVal)} (hne : rest ≠ []) {s : Swing}
    (hinv : NonFiniteInv t0 x0 rest s) (hpos : t0 < s.endTime) (hspan : s.endTime - t0 < 2 ^ 63)
    (ts : List Int) (hts : ∀ t ∈ ts, IsI64 t) :
    ∀ w ∈ swingGrid ops s.startTime s.endTime (s.model ops).1 (s.model ops).2 ts, w = x0 := by
  have hmodel := nonFinite_model hops hx hne hinv hpos hspan
  intro w hwm
  rw [hmodel] at hwm
  unfold swingGrid at hwm
  obtain ⟨t, ht, rfl⟩ := List.mem_map.mp hwm
  have hline : computeSlopeAndIntercept ops s.startTime x0 s.endTime x0 = (.fin false 0, x0) := by
    unfold computeSlopeAndIntercept
    rw [if_pos (equalOrNan_self x0)]
  dsimp only
  rw [hline]
  unfold lineAt
  cases x0 with
  | nan => rw [hops.add_nan, hops.toValue_nan]
  | inf sg => rw [hops.add_fin_inf _ _ (hops.mul_zero t (hts t ht)), hops.toValue_inf]
  | fin sg q => cases hx

theorem getLastD_mem {l : List Int} {d : Int} (h : l ≠ []) : l.getLastD d ∈ l := by
  rw [List.getLastD_eq_getLast?, List.getLast?_eq_some_getLast h]
  exact List.getLast_mem h

theorem le_getLastD {l : List Int} {d t : Int} (hs : l.Pairwise (· < ·)) (ht : t ∈ l) : t ≤ l.getLastD d := by
  induction l using List.reverseRecOn with
  | nil => cases ht
  | append_singleton l x _ =>
    rw [List.pairwise_append] at hs
    simp only [List.getLastD_concat]
    rcases List.mem_append.mp ht with h | h
    · exact (hs.2.2 t h x (by simp)).le
    · rw [List.mem_singleton] at h; exact h.le

/-- Once the first value is finite, all accepted values are. -/
theorem finite_acceptAll {ops : FloatOps} {t0 : Int} {x0 : FVal} {eb : ErrorBound} (hx : x0.isFinite = true)
    (rest : List (Int × FVal)) {s : Swing}
    (h : acceptAll (swingStep ops) (Swing.new eb) ((t0, x0) :: rest) = some s) :
    (s.firstValue = x0 ∧ s.length = rest.length + 1) ∧ ∀ p ∈ rest, p.2.isFinite = true := by
  induction rest using List.reverseRecOn generalizing s with
  | nil =>
    simp only [acceptAll, swingStep, List.foldlM_cons, List.foldlM_nil, Swing.fitDataPoint, Swing.new, if_true] at h
    simp at h
    subst h
    exact ⟨⟨rfl, rfl⟩, by simp⟩
  | append_singleton rest p ih =>
    rw [← List.cons_append] at h
    unfold acceptAll at h ih
    rw [List.foldlM_append] at h
    cases hs : List.foldlM (fun s x => if (swingStep ops s x).2 then some (swingStep ops s x).1 else none) (Swing.new eb)
        ((t0, x0) :: rest) with
    | none => rw [hs] at h; cases h
    | some s' =>
      rw [hs] at h
      simp only [Option.bind_eq_bind, Option.bind_some, List.foldlM_cons, List.foldlM_nil] at h
      obtain ⟨⟨h1, h2⟩, h3⟩ := ih hs
      have hlen0 : ¬ s'.length = 0 := by rw [h2]; omega
      split at h
      · rename_i ha
        injection h with h
        subst h
        have hp : p.2.isFinite = true := by
          by_contra hc
          unfold swingStep Swing.fitDataPoint at ha
          dsimp only at ha
          rw [if_neg hlen0, if_pos (by simp [hc])] at ha
          split at ha
          · rename_i heq
            rw [h1] at heq
            revert heq hx hc
            cases x0 <;> cases p.2 <;> simp [equalOrNan, FVal.eq, FVal.isNan, FVal.isFinite]
          · cases ha
        refine ⟨⟨?_, ?_⟩, ?_⟩
        · unfold swingStep Swing.fitDataPoint at ha ⊢
          dsimp only at ha ⊢
          rw [if_neg hlen0] at ha ⊢
          repeat' split
          all_goals exact h1
        · unfold swingStep at ha ⊢
          rw [fitDataPoint_length _ _ _ _ ha, h2]; simp
        · intro q hq
          rcases List.mem_append.mp hq with hq | hq
          · exact h3 q hq
          · rw [List.mem_singleton] at hq; subst hq; exact hp
      · cases h

end ModelarDB.Lemmas
