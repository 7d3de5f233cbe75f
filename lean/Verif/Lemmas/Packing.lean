import Verif.Lemmas.FitNext
/-
Packing and unpacking of the parameters of a model.
-/
namespace ModelarDB.Lemmas
open Model Spec

theorem fromLe_toLe {b : Nat} (hb : b < 2 ^ 32) : fromLeBytes32 (toLeBytes32 b) = some b := by
  simp only [toLeBytes32, fromLeBytes32, Option.some.injEq]
  omega

theorem fle_not_lt {a b : FVal} (h : a.le b = true) : b.lt a = false := by
  cases a <;> cases b <;> simp_all [FVal.le, FVal.lt, FVal.eq]
  · rename_i s t
    revert h; cases s <;> cases t <;> simp
  · rcases h with h | h <;> linarith

theorem lt_asymm' {a b : FVal} (h : a.lt b = true) : b.lt a = false := fle_not_lt (fle_of_lt h)

theorem lt_not_nan {a b : FVal} (h : a.lt b = true) : a.isNan = false ∧ b.isNan = false := by
  cases a <;> cases b <;> simp_all [FVal.lt, FVal.isNan]

theorem fle_not_nan {a b : FVal} (h : a.le b = true) : a.isNan = false ∧ b.isNan = false := by
  cases a <;> cases b <;> simp_all [FVal.le, FVal.lt, FVal.eq, FVal.isNan]

/-- The minimum is the first operand unless the second one is smaller. -/
theorem min32_first {a b : Nat} (ha : (FVal.ofBits32 a).isNan = false)
    (h : (FVal.ofBits32 b).lt (FVal.ofBits32 a) = false) : min32 a b = a := by
  unfold min32
  rw [ha, h]
  simp

theorem max32_first {a b : Nat} (ha : (FVal.ofBits32 a).isNan = false)
    (h : (FVal.ofBits32 a).lt (FVal.ofBits32 b) = false) : max32 a b = a := by
  unfold max32
  rw [ha, h]
  simp

/-- The parameter of a constant model is recovered. -/
theorem pmc_packing {v : Nat} (hv : v < 2 ^ 32) (hn : (FVal.ofBits32 v).isNan = false) (rmin rmax : Nat) :
    decodeValuesForPmcMean (min32 v rmin) (max32 v rmax) (encodeValuesForPmcMean v v rmin rmax) = some v := by
  unfold encodeValuesForPmcMean
  split
  · split
    · rename_i h1 h2
      simp only [decodeValuesForPmcMean, List.length_singleton]
      rw [max32_first hn (fle_not_lt h2)]
    · simp only [decodeValuesForPmcMean]
      exact fromLe_toLe hv
  · rename_i h
    simp only [decodeValuesForPmcMean, List.length_nil]
    rw [min32_first hn (by simpa using h)]

/-- NaN is recovered if there are only NaN residuals. -/
theorem pmc_packing_nan {v : Nat} (hn : (FVal.ofBits32 v).isNan = true) {rmin : Nat}
    (hr : (FVal.ofBits32 rmin).isNan = true) (rmax : Nat) :
    ∃ w, decodeValuesForPmcMean (min32 v rmin) (max32 v rmax) (encodeValuesForPmcMean v v rmin rmax) = some w ∧
      (FVal.ofBits32 w).isNan = true := by
  have hlt : (FVal.ofBits32 rmin).lt (FVal.ofBits32 v) = false := by
    cases h1 : FVal.ofBits32 rmin <;> simp_all [FVal.isNan, FVal.lt]
  refine ⟨rmin, ?_, hr⟩
  unfold encodeValuesForPmcMean
  rw [if_neg (by simp [hlt])]
  simp only [decodeValuesForPmcMean, List.length_nil]
  unfold min32
  rw [hn, if_pos rfl]

/-- The pair stored for a linear model (types.rs:122-144) as bit patterns. -/
theorem swing_packing {mn mx : Nat} (hmn : mn < 2 ^ 32) (hmx : mx < 2 ^ 32)
    (n1 : (FVal.ofBits32 mn).isNan = false) (n2 : (FVal.ofBits32 mx).isNan = false) (isFirst : Bool) (rmin rmax : Nat) :
    decodeValuesForSwing (min32 mn rmin) (max32 mx rmax) (encodeValuesForSwing mn mx isFirst rmin rmax) =
      some (if isFirst then (mn, mx) else (mx, mn)) := by
  unfold encodeValuesForSwing
  dsimp only
  cases h1 : (FVal.ofBits32 rmin).lt (FVal.ofBits32 mn) <;> cases h2 : (FVal.ofBits32 mx).lt (FVal.ofBits32 rmax) <;>
    cases isFirst <;>
    simp only [Bool.and_true, Bool.and_false, Bool.false_eq_true, if_true, if_false, Bool.not_true, Bool.not_false,
      decodeValuesForSwing, List.length_nil, List.length_cons, toLeBytes32, List.head?_cons, List.tail_cons,
      List.cons_append, List.nil_append, List.take_succ_cons, List.take_zero, List.drop_succ_cons, List.drop_zero,
      Nat.reduceAdd, zero_add] <;>
    (try rw [min32_first n1 h1]) <;> (try rw [max32_first n2 h2]) <;>
    (try rw [show fromLeBytes32 [mn % 256, mn / 256 % 256, mn / 65536 % 256, mn / 16777216 % 256] = some mn from fromLe_toLe hmn]) <;>
    (try rw [show fromLeBytes32 [mx % 256, mx / 256 % 256, mx / 65536 % 256, mx / 16777216 % 256] = some mx from fromLe_toLe hmx]) <;>
    rfl

/-! ### Bit patterns of the parameters of a model -/

theorem min_toBits {x y : FVal} (hx : IsF32 x) (hy : IsF32 y) : (x.min y).toBits32 = min32 x.toBits32 y.toBits32 := by
  unfold FVal.min min32
  rw [ofBits_toBits hx, ofBits_toBits hy]
  split
  · rfl
  · split
    · rfl
    · split <;> rfl

theorem max_toBits {x y : FVal} (hx : IsF32 x) (hy : IsF32 y) : (x.max y).toBits32 = max32 x.toBits32 y.toBits32 := by
  unfold FVal.max max32
  rw [ofBits_toBits hx, ofBits_toBits hy]
  split
  · rfl
  · split
    · rfl
    · split <;> rfl

theorem isF32_min {x y : FVal} (hx : IsF32 x) (hy : IsF32 y) : IsF32 (x.min y) := by
  unfold FVal.min
  repeat' split
  all_goals assumption

theorem isF32_max {x y : FVal} (hx : IsF32 x) (hy : IsF32 y) : IsF32 (x.max y) := by
  unfold FVal.max
  repeat' split
  all_goals assumption

/-- The fields of a finished segment that pack the parameters. -/
theorem finish_fields {log2 : Log2} {m : FittedModel} {eb : ErrorBound} {re : Nat} {ts : List Int} {vs : List Nat} {s : Segment}
    (h : m.finish log2 eb re ts vs = some s) :
    (re ≤ m.endIndex ∧ s.modelType = m.modelType ∧ s.minValue = m.minValue ∧ s.maxValue = m.maxValue ∧ s.values = m.values ∧
      s.residuals = []) ∨
    (m.endIndex < re ∧ s.modelType = m.modelType ∧ ∃ r : List Nat × Nat × Nat,
      r = ((MacaqueV.new eb).compressValuesWithoutFirst log2 (sliceIncl vs (m.endIndex + 1) re) m.modelLastValue).model ∧
      s.minValue = min32 m.minValue r.2.1 ∧ s.maxValue = max32 m.maxValue r.2.2 ∧
      s.residuals = r.1 ++ [((re - (m.endIndex + 1)) % 256 + 1) % 256] ∧
      ((m.modelType = .pmcMean ∧ s.values = encodeValuesForPmcMean m.minValue m.maxValue r.2.1 r.2.2) ∨
       (m.modelType = .swing ∧ s.values = encodeValuesForSwing m.minValue m.maxValue m.values.isEmpty r.2.1 r.2.2))) := by
  unfold FittedModel.finish at h
  split at h
  · dsimp only at h
    split at h
    · rename_i hlt
      right
      refine ⟨hlt, ?_⟩
      cases hm : m.modelType with
      | pmcMean =>
        rw [hm] at h; injection h with h; subst h
        exact ⟨rfl, _, rfl, rfl, rfl, rfl, Or.inl ⟨rfl, rfl⟩⟩
      | swing =>
        rw [hm] at h; injection h with h; subst h
        exact ⟨rfl, _, rfl, rfl, rfl, rfl, Or.inr ⟨rfl, rfl⟩⟩
      | macaqueV => rw [hm] at h; cases h
    · rename_i hlt
      left
      injection h with h; subst h
      exact ⟨not_lt.mp hlt, rfl, rfl, rfl, rfl, rfl⟩
  · cases h

/-- The parameters of a linear model are recovered, except for the sign of a zero. -/
theorem swing_recovered {log2 : Log2} {eb : ErrorBound} {i : Nat} {sw : Swing}
    (h1 : IsF32 (sw.model f64Ops).1) (h2 : IsF32 (sw.model f64Ops).2) (n1 : (sw.model f64Ops).1.isNan = false)
    (n2 : (sw.model f64Ops).2.isNan = false) {residualsEnd : Nat} {ts : List Int} {vs : List Nat} {s : Segment}
    (h : (ModelBuilder.selectSwing i sw).finish log2 eb residualsEnd ts vs = some s) :
    s.modelType = .swing ∧ ∃ last, decodeValuesForSwing s.minValue s.maxValue s.values =
      some ((sw.model f64Ops).1.toBits32, last) ∧
      (last = (sw.model f64Ops).2.toBits32 ∨
        (last = (sw.model f64Ops).1.toBits32 ∧ (sw.model f64Ops).1.eq (sw.model f64Ops).2 = true)) := by
  have hs : ModelBuilder.selectSwing i sw = ⟨.swing, i, i + sw.length - 1,
      ((sw.model f64Ops).1.min (sw.model f64Ops).2).toBits32, ((sw.model f64Ops).1.max (sw.model f64Ops).2).toBits32,
      if (sw.model f64Ops).1.lt (sw.model f64Ops).2 then [] else [0], (sw.model f64Ops).2.toBits32,
      swingBytesPerValue sw.length⟩ := rfl
  rw [hs] at h
  generalize (sw.model f64Ops).1 = x at *
  generalize (sw.model f64Ops).2 = y at *
  have hnx : x.isNan = false := n1
  have hny : y.isNan = false := n2
  have hmin := isF32_min h1 h2
  have hmax := isF32_max h1 h2
  have hminn : (FVal.ofBits32 (x.min y).toBits32).isNan = false := by
    rw [ofBits_toBits hmin]; unfold FVal.min; rw [hnx, hny]
    simp only [Bool.false_eq_true, if_false]; split <;> assumption
  have hmaxn : (FVal.ofBits32 (x.max y).toBits32).isNan = false := by
    rw [ofBits_toBits hmax]; unfold FVal.max; rw [hnx, hny]
    simp only [Bool.false_eq_true, if_false]; split <;> assumption
  have key : s.modelType = .swing ∧ decodeValuesForSwing s.minValue s.maxValue s.values =
      some (if x.lt y then ((x.min y).toBits32, (x.max y).toBits32) else ((x.max y).toBits32, (x.min y).toBits32)) := by
    rcases finish_fields h with ⟨_, g1, g2, g3, g4, _⟩ | ⟨_, g1, r, _, g2, g3, _, g4⟩
    · rw [g1, g2, g3, g4]
      refine ⟨rfl, ?_⟩
      dsimp only
      cases hlt : x.lt y <;> rfl
    · rcases g4 with ⟨h5, _⟩ | ⟨_, g4⟩
      · cases h5
      · rw [g1, g2, g3, g4]
        refine ⟨rfl, ?_⟩
        dsimp only
        rw [swing_packing (toBits_lt hmin) (toBits_lt hmax) hminn hmaxn]
        cases hlt : x.lt y <;> rfl
  refine ⟨key.1, ?_⟩
  rw [key.2]
  cases hlt : x.lt y with
  | true =>
    have e1 : x.min y = x := by unfold FVal.min; simp [hnx, hny, lt_asymm' hlt]
    have e2 : x.max y = y := by unfold FVal.max; simp [hnx, hny, hlt]
    rw [e1, e2]
    exact ⟨_, rfl, Or.inl rfl⟩
  | false =>
    have e2 : x.max y = x := by unfold FVal.max; simp [hnx, hny, hlt]
    rw [e2]
    cases hyx : y.lt x with
    | true =>
      have e1 : x.min y = y := by unfold FVal.min; simp [hnx, hny, hyx]
      rw [e1]
      exact ⟨_, rfl, Or.inl rfl⟩
    | false =>
      have e1 : x.min y = x := by unfold FVal.min; simp [hnx, hny, hyx]
      rw [e1]
      refine ⟨_, rfl, Or.inr ⟨rfl, ?_⟩⟩
      have := fle_of_not_lt hnx hny hyx
      simpa [FVal.le, hlt] using this

end ModelarDB.Lemmas
