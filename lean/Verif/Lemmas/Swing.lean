import Verif.Lemmas.FitNext
/-
The invariant of the linear model, for arithmetic with an absolute error of at most `e`.
-/
namespace ModelarDB.Lemmas
open Model Spec

/-- `x` is finite and stands for the rational number `q`. -/
def Is (x : FVal) (q : ℚ) : Prop := ∃ s m, x = .fin s m ∧ ratOf s m = q

/-- `x` is finite and within `e` of `q`. -/
def Near (x : FVal) (q e : ℚ) : Prop := ∃ r, Is x r ∧ |r - q| ≤ e

theorem is_fin (s : Bool) (m : ℚ) : Is (.fin s m) (ratOf s m) := ⟨s, m, rfl, rfl⟩

theorem Is.isFinite {x : FVal} {q : ℚ} (h : Is x q) : x.isFinite = true := by
  obtain ⟨s, m, rfl, _⟩ := h; rfl

theorem Is.isNan {x : FVal} {q : ℚ} (h : Is x q) : x.isNan = false := by
  obtain ⟨s, m, rfl, _⟩ := h; rfl

theorem Is.lt {x y : FVal} {p q : ℚ} (hx : Is x p) (hy : Is y q) : x.lt y = decide (p < q) := by
  obtain ⟨s, m, rfl, rfl⟩ := hx
  obtain ⟨t, n, rfl, rfl⟩ := hy
  rfl

theorem Is.equalOrNan {x y : FVal} {p q : ℚ} (hx : Is x p) (hy : Is y q) : equalOrNan x y = decide (p = q) := by
  obtain ⟨s, m, rfl, rfl⟩ := hx
  obtain ⟨t, n, rfl, rfl⟩ := hy
  simp only [Model.equalOrNan, FVal.eq, FVal.isNan, Bool.and_false, Bool.or_false]
  rfl

theorem is_unique {x : FVal} {p q : ℚ} (hp : Is x p) (hq : Is x q) : p = q := by
  obtain ⟨s, m, rfl, rfl⟩ := hp
  obtain ⟨t, n, h, rfl⟩ := hq
  injection h with h1 h2
  subst h1 h2; rfl

/-- Facts from the outcome of a comparison with data that are nearly known. -/
theorem not_lt_left {x y : FVal} {p q e : ℚ} (hx : Near x p e) (hy : Is y q) (h : x.lt y = false) : q ≤ p + e := by
  obtain ⟨r, hr, he⟩ := hx
  rw [hr.lt hy, decide_eq_false_iff_not] at h
  have := abs_le.mp he
  linarith

theorem not_lt_right {x y : FVal} {p q e : ℚ} (hx : Near x p e) (hy : Is y q) (h : y.lt x = false) : p - e ≤ q := by
  obtain ⟨r, hr, he⟩ := hx
  rw [hy.lt hr, decide_eq_false_iff_not] at h
  have := abs_le.mp he
  linarith

theorem lt_right {x y : FVal} {p q e : ℚ} (hx : Near x p e) (hy : Is y q) (h : y.lt x = true) : q ≤ p + e := by
  obtain ⟨r, hr, he⟩ := hx
  rw [hy.lt hr, decide_eq_true_iff] at h
  have := abs_le.mp he
  linarith

theorem lt_left {x y : FVal} {p q e : ℚ} (hx : Near x p e) (hy : Is y q) (h : x.lt y = true) : p - e ≤ q := by
  obtain ⟨r, hr, he⟩ := hx
  rw [hr.lt hy, decide_eq_true_iff] at h
  have := abs_le.mp he
  linarith

/-- The choice of the slope in `model`, whatever the slope with the least mean squared error is. -/
theorem clamp_is {l u x : FVal} {L U : ℚ} (hl : Is l L) (hu : Is u U) :
    ∃ σ, Is (l.max (x.min u)) σ ∧ (σ = L ∨ (σ = U ∧ L ≤ U) ∨ (L ≤ σ ∧ σ ≤ U)) := by
  have key : ∀ y : FVal, ∀ Y, Is y Y → Y ≤ U → ∃ σ, Is (l.max y) σ ∧ (σ = L ∨ (σ = U ∧ L ≤ U) ∨ (L ≤ σ ∧ σ ≤ U)) := by
    intro y Y hy hYU
    unfold FVal.max
    rw [hl.isNan, hy.isNan, hl.lt hy]
    by_cases h : L < Y
    · refine ⟨Y, by simpa [h] using hy, Or.inr (Or.inr ⟨h.le, hYU⟩)⟩
    · refine ⟨L, by simpa [h] using hl, Or.inl rfl⟩
  cases x with
  | nan => exact key u U hu le_rfl
  | inf s =>
    obtain ⟨t, n, rfl, rfl⟩ := hu
    cases s
    · exact key _ _ (is_fin t n) le_rfl
    · obtain ⟨t', n', rfl, rfl⟩ := hl
      refine ⟨ratOf t' n', ?_, Or.inl rfl⟩
      exact ⟨t', n', rfl, rfl⟩
  | fin s m =>
    unfold FVal.min
    rw [(is_fin s m).isNan, hu.isNan, hu.lt (is_fin s m)]
    by_cases h : U < ratOf s m
    · simpa [h] using key u U hu le_rfl
    · simpa [h] using key _ _ (is_fin s m) (not_lt.mp h)

/-! ### The invariant -/

/-- A point after the first: timestamp, value and maximum deviation. -/
structure Pt where
  t : Int
  x : FVal
  d : FVal
  v : ℚ
  δ : ℚ

/-- The line with the slope `σ` through the first point `(t0, v0)` is evaluated with an error of at
most `e` at the points in `adm`, and the slope is in `Q`. -/
structure LineOK (ops : FloatOps) (t0 : Int) (v0 : ℚ) (adm : Pt → Prop) (e : ℚ) (Q : ℚ → Prop) (l : FVal × FVal) (σ : ℚ) : Prop where
  slope : Is l.1 σ
  steep : Q σ
  add : ∀ p, adm p → Near (ops.add (lineAt ops l.1 l.2 p.t) p.d) (v0 + σ * (p.t - t0) + p.δ) e
  sub : ∀ p, adm p → Near (ops.sub (lineAt ops l.1 l.2 p.t) p.d) (v0 + σ * (p.t - t0) - p.δ) e

/-- What is needed of the arithmetic for points in `adm`. -/
structure SwingAcc (ops : FloatOps) (t0 : Int) (x0 : FVal) (v0 : ℚ) (eb : ErrorBound) (adm : Pt → Prop) (e : ℚ) (Q : ℚ → Prop) : Prop where
  first : Is x0 v0
  e_nonneg : 0 ≤ e
  after : ∀ p, adm p → t0 < p.t
  value : ∀ p, adm p → Is p.x p.v
  dev : ∀ p, adm p → p.d = maximumAllowedDeviation eb p.x
  dev_nonneg : ∀ p, adm p → 0 ≤ p.δ
  upper : ∀ p, adm p → ∃ σ, LineOK ops t0 v0 adm e Q (computeSlopeAndIntercept ops t0 x0 p.t (ops.add p.x p.d)) σ ∧
    |v0 + σ * (p.t - t0) - (p.v + p.δ)| ≤ e
  lower : ∀ p, adm p → ∃ σ, LineOK ops t0 v0 adm e Q (computeSlopeAndIntercept ops t0 x0 p.t (ops.sub p.x p.d)) σ ∧
    |v0 + σ * (p.t - t0) - (p.v - p.δ)| ≤ e

/-- The slope `σ` is within the deviation of the point, up to `η`. -/
def SlopeOK (t0 : Int) (v0 : ℚ) (σ η : ℚ) (p : Pt) : Prop :=
  v0 + σ * (p.t - t0) ≤ p.v + p.δ + η ∧ p.v - p.δ - η ≤ v0 + σ * (p.t - t0)

/-- The invariant of `Swing` after the first point and the points `pts` have been accepted. -/
structure SwingInv (ops : FloatOps) (t0 : Int) (x0 : FVal) (v0 : ℚ) (eb : ErrorBound) (adm : Pt → Prop) (e : ℚ) (Q : ℚ → Prop)
    (pts : List Pt) (s : Swing) : Prop where
  errorBound : s.errorBound = eb
  start : s.startTime = t0
  first : s.firstValue = x0
  length : s.length = pts.length + 1
  lines : pts ≠ [] → ∃ U L, LineOK ops t0 v0 adm e Q (s.upperSlope, s.upperIntercept) U ∧
    LineOK ops t0 v0 adm e Q (s.lowerSlope, s.lowerIntercept) L ∧
    ∀ p ∈ pts, SlopeOK t0 v0 U (2 * pts.length * e) p ∧ SlopeOK t0 v0 L (2 * pts.length * e) p

/-- If two lines through the first point are in order up to `c` at a time, they are at all times
before it. -/
theorem order_before {a b T t c : ℚ} (ht : 0 < t) (htT : t ≤ T) (hc : 0 ≤ c) (h : a * T ≤ b * T + c) :
    a * t ≤ b * t + c := by
  by_cases hab : a ≤ b
  · have := mul_le_mul_of_nonneg_right hab ht.le
    linarith
  · have hab := not_le.mp hab
    have : (a - b) * t ≤ (a - b) * T := mul_le_mul_of_nonneg_left htT (by linarith)
    linarith

/-- A new upper or lower line from a point at `T` also fits an earlier point. `O` is the opposite line. -/
theorem slopeOK_of_between {t0 : Int} {v0 A B σ η c : ℚ} {p : Pt} {T : Int} (ht : t0 < p.t) (hT : p.t ≤ T) (hc : 0 ≤ c)
    (hA : SlopeOK t0 v0 A η p) (hB : SlopeOK t0 v0 B η p) (hAσ : σ * (T - t0) ≤ A * (T - t0) + c)
    (hBσ : B * (T - t0) ≤ σ * (T - t0) + c) : SlopeOK t0 v0 σ (η + c) p := by
  have ht' : (0 : ℚ) < (p.t : ℚ) - t0 := by
    have : (t0 : ℚ) < p.t := by exact_mod_cast ht
    linarith
  have hT' : (p.t : ℚ) - t0 ≤ (T : ℚ) - t0 := by
    have : (p.t : ℚ) ≤ T := by exact_mod_cast hT
    linarith
  have h1 := order_before ht' hT' hc hAσ
  have h2 := order_before ht' hT' hc hBσ
  obtain ⟨a1, a2⟩ := hA
  obtain ⟨b1, b2⟩ := hB
  constructor
  · linarith
  · linarith

theorem SlopeOK.mono {t0 : Int} {v0 σ η η' : ℚ} {p : Pt} (h : SlopeOK t0 v0 σ η p) (hle : η ≤ η') : SlopeOK t0 v0 σ η' p :=
  ⟨by linarith [h.1], by linarith [h.2]⟩

theorem swing_step {ops : FloatOps} {t0 : Int} {x0 : FVal} {v0 : ℚ} {eb : ErrorBound} {adm : Pt → Prop} {e : ℚ} {Q : ℚ → Prop}
    (hacc : SwingAcc ops t0 x0 v0 eb adm e Q) {pts : List Pt} {s : Swing} (hinv : SwingInv ops t0 x0 v0 eb adm e Q pts s)
    (hadm : ∀ p ∈ pts, adm p) {p : Pt} (hp : adm p) (hafter : ∀ q ∈ pts, q.t ≤ p.t)
    (h : (s.fitDataPoint ops p.t p.x).2 = true) :
    SwingInv ops t0 x0 v0 eb adm e Q (pts ++ [p]) (s.fitDataPoint ops p.t p.x).1 ∧
      (s.fitDataPoint ops p.t p.x).1.endTime = p.t := by
  have he := hacc.e_nonneg
  have hδ := hacc.dev_nonneg p hp
  obtain ⟨σu, hu, hu2⟩ := hacc.upper p hp
  obtain ⟨σl, hl, hl2⟩ := hacc.lower p hp
  have hu3 := abs_le.mp hu2
  have hl3 := abs_le.mp hl2
  have hlen0 : ¬ s.length = 0 := by rw [hinv.length]; omega
  have hfin : (!s.firstValue.isFinite || !p.x.isFinite) = false := by
    rw [hinv.first, hacc.first.isFinite, (hacc.value p hp).isFinite]; rfl
  have hd := hacc.dev p hp
  unfold Swing.fitDataPoint at h ⊢
  dsimp only at h ⊢
  rw [if_neg hlen0, hfin, if_neg (by simp), hinv.errorBound, ← hd, hinv.start, hinv.first] at h ⊢
  have hk : (((pts ++ [p]).length : Nat) : ℚ) = (pts.length : ℚ) + 1 := by simp
  by_cases hone : s.length = 1
  · have hnil : pts = [] := by
      have := hinv.length
      exact List.length_eq_zero_iff.mp (by omega)
    subst hnil
    rw [if_pos hone]
    refine ⟨⟨rfl, rfl, rfl, by simp [hone], fun _ => ⟨σu, σl, hu, hl, ?_⟩⟩, rfl⟩
    intro q hq
    simp only [List.nil_append, List.mem_singleton] at hq
    subst hq
    simp only [List.nil_append, List.length_singleton, Nat.cast_one, mul_one]
    exact ⟨⟨by linarith, by linarith⟩, ⟨by linarith, by linarith⟩⟩
  · have hne : pts ≠ [] := by
      intro hnil
      have := hinv.length
      rw [hnil] at this
      exact hone this
    obtain ⟨U, L, hU, hL, hall⟩ := hinv.lines hne
    rw [if_neg hone] at h ⊢
    split at h
    · cases h
    rename_i hrej
    rw [if_neg hrej]
    rw [Bool.or_eq_true, not_or, Bool.not_eq_true, Bool.not_eq_true] at hrej
    have hx := hacc.value p hp
    -- acceptance
    have c1 := not_lt_left (hU.add p hp) hx hrej.1
    have c2 := not_lt_right (hL.sub p hp) hx hrej.2
    refine ⟨⟨rfl, rfl, rfl, by simp [hinv.length], fun _ => ?_⟩, rfl⟩
    -- the upper line
    have hupper : ∃ U', LineOK ops t0 v0 adm e Q
        ((if p.x.lt (ops.sub (lineAt ops s.upperSlope s.upperIntercept p.t) p.d) then
            (computeSlopeAndIntercept ops t0 x0 p.t (ops.add p.x p.d)).1 else s.upperSlope),
          (if p.x.lt (ops.sub (lineAt ops s.upperSlope s.upperIntercept p.t) p.d) then
            (computeSlopeAndIntercept ops t0 x0 p.t (ops.add p.x p.d)).2 else s.upperIntercept)) U' ∧
        (∀ q ∈ pts, SlopeOK t0 v0 U' (2 * pts.length * e + 2 * e) q) ∧ SlopeOK t0 v0 U' (2 * e) p := by
      cases hlow : p.x.lt (ops.sub (lineAt ops s.upperSlope s.upperIntercept p.t) p.d) with
      | true =>
        have c3 := lt_right (hU.sub p hp) hx hlow
        refine ⟨σu, by simpa using hu, fun q hq => ?_, by linarith, by linarith⟩
        refine slopeOK_of_between (hacc.after q (hadm q hq)) (hafter q hq) (by linarith) (hall q hq).1 (hall q hq).2 ?_ ?_
        · linarith
        · linarith
      | false =>
        have c3 := not_lt_right (hU.sub p hp) hx hlow
        refine ⟨U, by simpa using hU, fun q hq => (hall q hq).1.mono (by linarith), by linarith, by linarith⟩
    have hlower : ∃ L', LineOK ops t0 v0 adm e Q
        ((if (ops.add (lineAt ops s.lowerSlope s.lowerIntercept p.t) p.d).lt p.x then
            (computeSlopeAndIntercept ops t0 x0 p.t (ops.sub p.x p.d)).1 else s.lowerSlope),
          (if (ops.add (lineAt ops s.lowerSlope s.lowerIntercept p.t) p.d).lt p.x then
            (computeSlopeAndIntercept ops t0 x0 p.t (ops.sub p.x p.d)).2 else s.lowerIntercept)) L' ∧
        (∀ q ∈ pts, SlopeOK t0 v0 L' (2 * pts.length * e + 2 * e) q) ∧ SlopeOK t0 v0 L' (2 * e) p := by
      cases hlow : (ops.add (lineAt ops s.lowerSlope s.lowerIntercept p.t) p.d).lt p.x with
      | true =>
        have c3 := lt_left (hL.add p hp) hx hlow
        refine ⟨σl, by simpa using hl, fun q hq => ?_, by linarith, by linarith⟩
        refine slopeOK_of_between (hacc.after q (hadm q hq)) (hafter q hq) (by linarith) (hall q hq).1 (hall q hq).2 ?_ ?_
        · linarith
        · linarith
      | false =>
        have c3 := not_lt_left (hL.add p hp) hx hlow
        refine ⟨L, by simpa using hL, fun q hq => (hall q hq).2.mono (by linarith), by linarith, by linarith⟩
    obtain ⟨U', hU', hU1, hU2⟩ := hupper
    obtain ⟨L', hL', hL1, hL2⟩ := hlower
    refine ⟨U', L', hU', hL', ?_⟩
    have hn : (0 : ℚ) ≤ pts.length := by positivity
    have hne2 : 0 ≤ 2 * (pts.length : ℚ) * e := by positivity
    intro q hq
    rw [hk]
    rcases List.mem_append.mp hq with hq | hq
    · exact ⟨(hU1 q hq).mono (by linarith), (hL1 q hq).mono (by linarith)⟩
    · rw [List.mem_singleton] at hq
      subst hq
      exact ⟨hU2.mono (by linarith), hL2.mono (by linarith)⟩

/-- The invariant after all points of a list have been accepted. -/
theorem swing_acceptAll {ops : FloatOps} {t0 : Int} {x0 : FVal} {v0 : ℚ} {eb : ErrorBound} {adm : Pt → Prop} {e : ℚ} {Q : ℚ → Prop}
    (hacc : SwingAcc ops t0 x0 v0 eb adm e Q) (pts : List Pt) (hadm : ∀ p ∈ pts, adm p)
    (hsorted : (pts.map Pt.t).Pairwise (· < ·)) {s : Swing}
    (h : acceptAll (swingStep ops) (Swing.new eb) ((t0, x0) :: pts.map fun p => (p.t, p.x)) = some s) :
    SwingInv ops t0 x0 v0 eb adm e Q pts s ∧ s.endTime = (pts.map Pt.t).getLastD t0 := by
  induction pts using List.reverseRecOn generalizing s with
  | nil =>
    simp only [acceptAll, swingStep, List.map_nil, List.foldlM_cons, List.foldlM_nil, Swing.fitDataPoint, Swing.new,
      if_true] at h
    simp at h
    subst h
    exact ⟨⟨rfl, rfl, rfl, rfl, fun h => absurd rfl h⟩, rfl⟩
  | append_singleton pts p ih =>
    rw [List.map_append, ← List.cons_append] at h
    unfold acceptAll at h ih
    rw [List.foldlM_append] at h
    cases hs : List.foldlM (fun s x => if (swingStep ops s x).2 then some (swingStep ops s x).1 else none) (Swing.new eb)
        ((t0, x0) :: pts.map fun p => (p.t, p.x)) with
    | none => rw [hs] at h; cases h
    | some s' =>
      rw [hs] at h
      simp only [Option.bind_eq_bind, Option.bind_some, List.map_cons, List.map_nil, List.foldlM_cons, List.foldlM_nil] at h
      rw [List.map_append, List.pairwise_append] at hsorted
      have hinv := (ih (fun q hq => hadm q (List.mem_append_left _ hq)) hsorted.1 hs).1
      split at h
      · rename_i ha
        injection h with h
        subst h
        have := swing_step hacc hinv (fun q hq => hadm q (List.mem_append_left _ hq))
          (hadm p (List.mem_append_right _ (List.mem_singleton_self p)))
          (fun q hq => (hsorted.2.2 _ (List.mem_map_of_mem hq) p.t (by simp)).le) ha
        refine ⟨this.1, ?_⟩
        rw [List.map_append]
        simpa [swingStep] using this.2
      · cases h

/-- The slope of the model fits all accepted points. -/
theorem swing_slope {ops : FloatOps} {t0 : Int} {x0 : FVal} {v0 : ℚ} {eb : ErrorBound} {adm : Pt → Prop} {e : ℚ} {Q : ℚ → Prop}
    {pts : List Pt} {s : Swing} (hacc : SwingAcc ops t0 x0 v0 eb adm e Q) (hadm : ∀ p ∈ pts, adm p)
    (hinv : SwingInv ops t0 x0 v0 eb adm e Q pts s) (hne : pts ≠ [])
    (hQ : ∀ a b c, Q a → Q b → a ≤ c → c ≤ b → Q c) :
    ∃ σ, Is (s.slope ops) σ ∧ Q σ ∧ ∀ p ∈ pts, SlopeOK t0 v0 σ (2 * pts.length * e) p := by
  obtain ⟨U, L, hU, hL, hall⟩ := hinv.lines hne
  obtain ⟨σ, h1, h2⟩ := clamp_is (x := ops.div s.numerator s.denominator) hL.slope hU.slope
  refine ⟨σ, h1, ?_, fun p hp => ?_⟩
  · rcases h2 with rfl | ⟨rfl, _⟩ | ⟨h3, h4⟩
    · exact hL.steep
    · exact hU.steep
    · exact hQ _ _ _ hL.steep hU.steep h3 h4
  rcases h2 with rfl | ⟨rfl, _⟩ | ⟨h3, h4⟩
  · exact (hall p hp).2
  · exact (hall p hp).1
  · have ht : (0 : ℚ) ≤ (p.t : ℚ) - t0 := by
      have : (t0 : ℚ) < p.t := by exact_mod_cast hacc.after p (hadm p hp)
      linarith
    have a := mul_le_mul_of_nonneg_right h3 ht
    have b := mul_le_mul_of_nonneg_right h4 ht
    obtain ⟨⟨u1, _⟩, ⟨_, l2⟩⟩ := hall p hp
    exact ⟨by linarith, by linarith⟩

end ModelarDB.Lemmas
