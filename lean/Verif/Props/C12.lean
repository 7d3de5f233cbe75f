import Verif.Lemmas.Sum
import Verif.Lemmas.Deviation
import Verif.Props.C05
import Verif.Props.C01
/-
C12: the sum computed from a segment equals the sum of its points.

`grid s` are the points that reading the segment returns and `segmentSum s` is the sum that is computed
from the segment. Summing `n` binary32 numbers one after the other changes the result by at most
`((1 + 2 ^ -24) ^ n - 1)` times the sum of the magnitudes; the theorems allow three more roundings.
-/
namespace ModelarDB.Props
open Model Spec Lemmas

/-- `sum` is a number that differs from the exact sum of `ws` by no more than the roundings of
`ws.length + 3` operations. -/
def SumsTo (sum : FVal) (ws : List Nat) : Prop :=
  ∃ r, Is sum r ∧ |r - exactSum ws| ≤ ((1 + 1 / 2 ^ 24) ^ (ws.length + 3) - 1) * exactAbsSum ws

theorem unit32_eq : unit32 = 1 / 2 ^ 24 := by unfold unit32; rw [pow2_eq]; norm_num

/-- The same for a sum that is a binary32 number. -/
def SumsTo32 (sum : FVal) (ws : List Nat) : Prop :=
  ∃ r, Num32 sum r ∧ |r - exactSum ws| ≤ ((1 + 1 / 2 ^ 24) ^ (ws.length + 3) - 1) * exactAbsSum ws

theorem sumsTo_of {sum : FVal} {ws : List Nat} {r : ℚ} {m : Nat} (h : Num32 sum r) (hm : m ≤ ws.length + 3)
    (he : |r - exactSum ws| ≤ ((1 + unit32) ^ m - 1) * exactAbsSum ws) : SumsTo32 sum ws := by
  refine ⟨r, h, he.trans ?_⟩
  rw [← unit32_eq]
  refine mul_le_mul_of_nonneg_right ?_ (exactAbsSum_nonneg ws)
  have := pow_le_pow_right₀ (show (1 : ℚ) ≤ 1 + unit32 by linarith [unit32_pos]) hm
  linarith

theorem exactSum_append (a b : List Nat) : exactSum (a ++ b) = exactSum a + exactSum b := by simp [exactSum]

theorem exactAbsSum_append (a b : List Nat) : exactAbsSum (a ++ b) = exactAbsSum a + exactAbsSum b := by
  simp [exactAbsSum]

theorem segmentSum_sumsTo (s : Segment) (hty : s.modelType ≠ .swing)
    (hxor : s.modelType = .macaqueV → s.residuals = []) (ts : List Int) (ws : List Nat)
    (hne : ts ≠ [])
    (hgrid : grid s = some (ts, ws)) (hlen : segmentLen s.startTime s.endTime s.timestamps = some ts.length)
    (hsize : ts.length < 2 ^ 63) (hws : ∀ w ∈ ws, (FVal.ofBits32 w).isFinite = true)
    (sum : FVal) (hsum : segmentSum s = some sum) (hfin : sum.isFinite = true) : SumsTo32 sum ws := by
  unfold grid at hgrid
  cases hd : decompressAllTimestamps s.startTime s.endTime s.timestamps with
  | none => rw [hd] at hgrid; cases hgrid
  | some ts' =>
    rw [hd] at hgrid
    dsimp only at hgrid
    split at hgrid
    · cases hgrid
    rename_i hres
    have hres' : ¬ ts'.length < residualsLength s.residuals := hres
    cases hmv : s.modelValues (ts'.take (ts'.length - residualsLength s.residuals)) with
    | none => rw [hmv] at hgrid; cases hgrid
    | some mv =>
      rw [hmv] at hgrid
      dsimp only at hgrid
      have htlen : (ts'.take (ts'.length - residualsLength s.residuals)).length =
          ts'.length - residualsLength s.residuals := by rw [List.length_take]; omega
      unfold segmentSum at hsum
      rw [hlen] at hsum
      dsimp only at hsum
      unfold Segment.modelValues at hmv
      cases hm : s.modelType with
      | swing => exact absurd hm hty
      | macaqueV =>
        have hr0 := hxor hm
        rw [hr0] at hgrid hsum hmv htlen
        simp only [List.isEmpty_nil, if_true, Option.some.injEq, Prod.mk.injEq] at hgrid
        obtain ⟨rfl, rfl⟩ := hgrid
        rw [hm] at hmv hsum
        dsimp only at hmv hsum
        have hrl : residualsLength ([] : List Nat) = 0 := rfl
        rw [hrl] at hsum hmv htlen
        rw [if_neg (by omega)] at hsum
        simp only [Nat.sub_zero, List.take_length] at hsum hmv
        unfold macaqueVGrid at hmv
        unfold macaqueVSum at hsum
        cases hb : BitReader.tryNew s.values with
        | none => rw [hb] at hmv; cases hmv
        | some bits =>
          rw [hb] at hmv hsum
          dsimp only at hmv hsum
          cases hrd : bits.readBits 32 with
          | none => rw [hrd] at hmv; cases hmv
          | some p =>
            obtain ⟨first, bits'⟩ := p
            rw [hrd] at hmv hsum
            dsimp only at hmv hsum
            cases hn : ts'.length with
            | zero => rw [hn] at hmv; cases hmv
            | succ n =>
              rw [hn] at hmv hsum
              dsimp only at hmv hsum
              cases hrun : XorDecoder.run n ⟨bits', 255, 0, first % 2 ^ 32⟩ with
              | none => rw [hrun] at hmv; cases hmv
              | some rest =>
                rw [hrun] at hmv
                injection hmv with hmv
                subst hmv
                obtain ⟨h1, h2⟩ := run_runSum n _ (FVal.ofBits32 (first % 2 ^ 32)) hrun
                rw [h1] at hsum
                simp only [List.isEmpty_nil, if_true, Option.some.injEq] at hsum
                subst hsum
                obtain ⟨q, hq⟩ := num32_ofBits (hws (first % 2 ^ 32) (by simp))
                obtain ⟨r, hr, he⟩ := foldAdd_error rest hq (fun w hw => hws w (by simp [hw])) hfin
                refine sumsTo_of hr (m := rest.length) (by simp; omega) ?_
                have e1 : exactSum (first % 2 ^ 32 :: rest) = q + exactSum rest := by
                  rw [show first % 2 ^ 32 :: rest = [first % 2 ^ 32] ++ rest from rfl, exactSum_append]
                  simp only [exactSum, List.map_cons, List.map_nil, List.sum_cons, List.sum_nil, hq.value, add_zero]
                have e2 : exactAbsSum (first % 2 ^ 32 :: rest) = |q| + exactAbsSum rest := by
                  rw [show first % 2 ^ 32 :: rest = [first % 2 ^ 32] ++ rest from rfl, exactAbsSum_append]
                  simp only [exactAbsSum, List.map_cons, List.map_nil, List.sum_cons, List.sum_nil, hq.value, add_zero]
                rw [e1, e2]
                exact he
      | pmcMean =>
        rw [hm] at hmv hsum
        dsimp only at hmv hsum
        cases hdec : decodeValuesForPmcMean s.minValue s.maxValue s.values with
        | none => rw [hdec] at hmv; cases hmv
        | some v =>
          rw [hdec] at hmv hsum
          dsimp only at hmv hsum
          rw [htlen] at hmv
          injection hmv with hmv
          subst hmv
          by_cases hr0 : s.residuals.isEmpty = true
          · rw [if_pos hr0] at hgrid
            simp only [Option.some.injEq, Prod.mk.injEq] at hgrid
            obtain ⟨rfl, rfl⟩ := hgrid
            have hrl : residualsLength s.residuals = 0 := by
              rw [List.isEmpty_iff.mp hr0]; rfl
            rw [hrl] at hsum hws ⊢
            rw [if_neg (by omega), if_pos hr0] at hsum
            simp only [Nat.sub_zero] at hsum hws ⊢
            injection hsum with hsum
            subst hsum
            have hpos : 0 < ts'.length := List.length_pos_iff.mpr hne
            obtain ⟨q, hq⟩ := num32_ofBits (hws v (List.mem_replicate.mpr ⟨by omega, rfl⟩))
            obtain ⟨r, hr, he⟩ := pmcMeanSum_error hpos hsize hq hfin
            refine sumsTo_of hr (m := 2) (by omega) ?_
            rw [exactSum_replicate hq, exactAbsSum_replicate hq]
            exact he
          · rw [if_neg hr0] at hgrid
            rcases Nat.eq_zero_or_pos (ts'.length - residualsLength s.residuals) with h0 | hpos
            · rw [h0] at hgrid; cases hgrid
            rw [show (pmcMeanGrid v (ts'.length - residualsLength s.residuals)).getLast? = some v by
              rw [pmcMeanGrid, List.getLast?_replicate, if_neg (by omega)]] at hgrid
            dsimp only at hgrid
            have hdl : (ts'.drop (ts'.length - residualsLength s.residuals)).length = residualsLength s.residuals := by
              rw [List.length_drop]; omega
            rw [hdl] at hgrid
            cases hmg : macaqueVGrid s.residuals.dropLast (residualsLength s.residuals) (some v) with
            | none => rw [hmg] at hgrid; cases hgrid
            | some rs =>
              rw [hmg] at hgrid
              simp only [Option.some.injEq, Prod.mk.injEq] at hgrid
              obtain ⟨rfl, rfl⟩ := hgrid
              rw [if_neg hres', if_neg hr0] at hsum
              unfold macaqueVGrid at hmg
              unfold macaqueVSum at hsum
              cases hb : BitReader.tryNew s.residuals.dropLast with
              | none => rw [hb] at hmg; cases hmg
              | some bits =>
                rw [hb] at hmg hsum
                dsimp only at hmg hsum
                obtain ⟨h1, h2⟩ := run_runSum _ _ (.fin false 0) hmg
                rw [h1] at hsum
                injection hsum with hsum
                subst hsum
                obtain ⟨q, hq⟩ := num32_ofBits (hws v (List.mem_append_left _ (List.mem_replicate.mpr ⟨by omega, rfl⟩)))
                have hf1 : (pmcMeanSum (ts'.length - residualsLength s.residuals) (FVal.ofBits32 v)).isFinite = true := by
                  by_contra hc
                  rw [Bool.not_eq_true] at hc
                  rw [add_not_finite hc] at hfin; cases hfin
                have hf2 : (foldAdd (.fin false 0) rs).isFinite = true := by
                  by_contra hc
                  rw [Bool.not_eq_true] at hc
                  rw [add_not_finite_right hc] at hfin; cases hfin
                obtain ⟨r1, hr1, he1⟩ := pmcMeanSum_error hpos (by omega) hq hf1
                obtain ⟨r2, hr2, he2⟩ := foldAdd_error0 rs (fun w hw => hws w (by simp [hw])) hf2
                rw [← exactSum_replicate hq, ← exactAbsSum_replicate hq] at he1
                obtain ⟨r, hr, he⟩ := add_error hr1 hr2 hfin (exactSum_abs_le _) (exactSum_abs_le _) he1 he2
                refine sumsTo_of hr (m := 2 + rs.length + 1) (by simp; omega) ?_
                rw [exactSum_append, exactAbsSum_append]
                exact he

/-- **C12** for segments that store a constant model, with or without residuals, and for segments that
store all values with the XOR codec: the sum is the sum of the points read, up to rounding. -/
theorem C12_sum_constant_or_xor_partial (s : Segment) (hty : s.modelType ≠ .swing)
    (hxor : s.modelType = .macaqueV → s.residuals = []) (ts : List Int) (ws : List Nat)
    (hne : ts ≠ [])
    (hgrid : grid s = some (ts, ws)) (hlen : segmentLen s.startTime s.endTime s.timestamps = some ts.length)
    (hsize : ts.length < 2 ^ 63) (hws : ∀ w ∈ ws, (FVal.ofBits32 w).isFinite = true)
    (sum : FVal) (hsum : segmentSum s = some sum) (hfin : sum.isFinite = true) : SumsTo sum ws := by
  obtain ⟨r, h1, h2⟩ := segmentSum_sumsTo s hty hxor ts ws hne hgrid hlen hsize hws sum hsum hfin
  exact ⟨r, h1.is, h2⟩

theorem sum_affine (p σ : ℚ) (t0 : Int) (ts : List Int) :
    (ts.map fun t : Int => p + σ * ((t : ℚ) - t0)).sum = ts.length * p + σ * (ts.map fun t : Int => ((t : ℚ) - t0)).sum := by
  induction ts with
  | nil => simp
  | cons t ts ih =>
    simp only [List.map_cons, List.sum_cons, ih, List.length_cons]
    push_cast
    ring

theorem sum_line (p σ : ℚ) (t0 : Int) (ts : List Int) (f : Int → FVal)
    (hf : ∀ t, Is (f t) (p + σ * (t - t0))) :
    ((ts.map f).map valueOf).sum = ts.length * p + σ * (ts.map fun t : Int => ((t : ℚ) - t0)).sum := by
  induction ts with
  | nil => simp
  | cons t ts ih =>
    have : valueOf (f t) = p + σ * (t - t0) := by
      obtain ⟨s, m, h1, h2⟩ := hf t
      rw [h1]; exact h2
    simp only [List.map_cons, List.sum_cons, ih, this, List.length_cons]
    push_cast
    ring

theorem sum_progression (t d : Int) (t0 : Int) (n : Nat) :
    2 * ((progression t d n).map fun t : Int => ((t : ℚ) - t0)).sum = 2 * n * (t - t0) + d * (n * (n - 1)) := by
  induction n generalizing t with
  | zero => simp [progression]
  | succ n ih =>
    simp only [progression, List.map_cons, List.sum_cons, mul_add, ih]
    push_cast
    ring

theorem progression_take (t d : Int) (n k : Nat) : (progression t d n).take k = progression t d (min k n) := by
  induction n generalizing t k with
  | zero => simp [progression]
  | succ n ih =>
    cases k with
    | zero => simp [progression]
    | succ k => simp only [progression, List.take_succ_cons, ih, Nat.succ_min_succ]

theorem progression_length (t d : Int) (n : Nat) : (progression t d n).length = n := by
  induction n generalizing t with
  | zero => rfl
  | succ n ih => simp [progression, ih]

theorem foldl_exact (f : Int → FVal) (g : Int → ℚ) (hf : ∀ t, Is (f t) (g t)) (ts : List Int) {acc : FVal} {a : ℚ}
    (ha : Is acc a) :
    Is (ts.foldl (fun sum t => exactOps.add sum (f t)) acc) (a + (ts.map g).sum) := by
  induction ts generalizing acc a with
  | nil => simpa using ha
  | cons t ts ih =>
    have := ih (exact_add ha (hf t))
    simpa [add_assoc] using this

/-- Timestamps that are stored as regular are equally spaced. -/
theorem regular_is_progression {ts : List Int} (hrange : ∀ t ∈ ts, IsI64 t) (hinc : StrictlyIncreasing ts)
    (h2 : 2 ≤ ts.length) (h : areUncompressedTimestampsRegular ts = true) :
    ∃ t0 d, 0 < d ∧ ts = progression t0 d ts.length := by
  match ts, h2 with
  | t0 :: t1 :: rest, _ =>
    have hlt : t0 < t1 := (List.pairwise_cons.mp hinc).1 t1 (by simp)
    have h0 := hrange t0 (by simp)
    have h1 := hrange t1 (by simp)
    refine ⟨t0, t1 - t0, by omega, ?_⟩
    exact regularLoop_spec (t1 :: rest) (t1 - t0) t0 (by unfold IsI64 at h0 h1; omega) hrange
      (hinc.imp Int.le_of_lt) h

theorem compressed_regular_iff {ts : List Int} (hrange : ∀ t ∈ ts, IsI64 t) (h2 : 2 ≤ ts.length) (hsize : ts.length < 2 ^ 63) :
    areCompressedTimestampsRegular (compressResidualTimestamps ts) = areUncompressedTimestampsRegular ts := by
  unfold compressResidualTimestamps
  by_cases hl : ts.length ≤ 2
  · rw [if_pos hl]
    match ts, h2, hl with
    | [a, b], _, _ =>
      simp [areCompressedTimestampsRegular, areUncompressedTimestampsRegular, regularLoop]
  · rw [if_neg hl]
    by_cases hr : areUncompressedTimestampsRegular ts = true
    · rw [if_pos hr, hr]
      exact (regular_length_roundtrip ts (List.ne_nil_of_length_pos (by omega)) hsize).2.2.1
    · rw [if_neg hr]
      rw [Bool.not_eq_true] at hr
      rw [hr]
      obtain ⟨t0, t1, rest, tn, rfl⟩ := split_ends ts (by omega)
      exact (irregular_roundtrip t0 (t1 :: rest) tn (fun t ht => hrange t (by
        simp only [List.mem_cons, List.mem_append] at ht ⊢; rcases ht with h | h <;> simp [h]))).1

/-- **C12** for linear models without rounding: the closed formula for regular timestamps and the sum over
irregular timestamps give the sum of the values that are read at the timestamps of the model
(all but the last `r`), provided that the timestamps are regular or that there are no residuals. -/
theorem C12_sum_linear_exact_partial (ts : List Int) (hne : ts ≠ []) (hrange : ∀ t ∈ ts, IsI64 t)
    (hinc : StrictlyIncreasing ts) (hsize : ts.length < 2 ^ 63) (r : Nat) (hr : r + 2 ≤ ts.length)
    (hspan : ts.getLast hne - ts.head hne < 2 ^ 63)
    (hreg : areUncompressedTimestampsRegular ts = true ∨ r = 0)
    (modelTs : List Int) (hmodel : modelTs = ts.take (ts.length - r)) (hmne : modelTs ≠ [])
    (first last : FVal) (p q : ℚ) (hp : Is first p) (hq : Is last q) :
    ∃ sum, swingSum exactOps (ts.head hne) (ts.getLast hne) (compressResidualTimestamps ts) first last r = some sum ∧
      Is sum ((swingGrid exactOps (modelTs.head hmne) (modelTs.getLast hmne) first last modelTs).map valueOf).sum := by
  obtain ⟨hdec, hsl⟩ := roundtrip_and_length ts hne hrange (strict_nonDecreasing hinc) hsize (strict_ends ts hne hinc)
  have hmlen : modelTs.length = ts.length - r := by rw [hmodel, List.length_take]; omega
  have hhead : modelTs.head hmne = ts.head hne := by
    subst hmodel
    rw [List.head_eq_getElem, List.head_eq_getElem, List.getElem_take]
  have hlt : ts.head hne < ts.getLast hne := by
    rcases strict_ends ts hne hinc with h | h
    · omega
    · refine lt_of_le_of_ne ?_ h
      rw [List.head_eq_getElem, List.getLast_eq_getElem]
      exact List.pairwise_iff_getElem.mp (strict_nonDecreasing hinc) 0 (ts.length - 1) (by omega) (by omega) (by omega)
  have hglm : modelTs.getLast hmne = ts[ts.length - r - 1] := by
    subst hmodel
    rw [List.getLast_eq_getElem, List.getElem_take]
    congr 1
    omega
  have hmlt : ts.head hne < modelTs.getLast hmne := by
    rw [hglm, List.head_eq_getElem]
    exact List.pairwise_iff_getElem.mp hinc 0 (ts.length - r - 1) (by omega) (by omega) (by omega)
  have hmle : modelTs.getLast hmne ≤ ts.getLast hne := by
    rw [hglm, List.getLast_eq_getElem]
    rcases Nat.eq_or_lt_of_le (show ts.length - r - 1 ≤ ts.length - 1 by omega) with h | h
    · simp only [h, le_refl]
    · exact Int.le_of_lt (List.pairwise_iff_getElem.mp hinc _ _ (by omega) (by omega) h)
  obtain ⟨σ, l1, l2, l3⟩ := exact_line hp hq hlt hspan
  obtain ⟨τ, m1, m2, m3⟩ := exact_line hp hq hmlt (by omega)
  have hsum : ((swingGrid exactOps (modelTs.head hmne) (modelTs.getLast hmne) first last modelTs).map valueOf).sum =
      modelTs.length * p + τ * (modelTs.map fun t : Int => ((t : ℚ) - ts.head hne)).sum := by
    unfold swingGrid
    rw [hhead]
    exact sum_line p τ (ts.head hne) modelTs _ (fun t => exact_lineAt m1 m2 t)
  unfold swingSum
  dsimp only
  rw [compressed_regular_iff hrange (by omega) hsize, hsl, hdec]
  by_cases hu : areUncompressedTimestampsRegular ts = true
  · rw [if_pos hu]
    dsimp only
    rw [if_neg (by omega)]
    refine ⟨_, rfl, ?_⟩
    obtain ⟨t0, d, hd, hprog⟩ := regular_is_progression hrange hinc (by omega) hu
    have hm : modelTs = progression t0 d modelTs.length := by
      have h1 := progression_take t0 d ts.length (ts.length - r)
      rw [← hprog, ← hmodel, Nat.min_eq_left (by omega), ← hmlen] at h1
      exact h1
    have ht0 : ts.head hne = t0 := by
      have h1 : ts.head? = some (ts.head hne) := List.head?_eq_some_head hne
      obtain ⟨k, hk⟩ : ∃ k, ts.length = k + 1 := ⟨ts.length - 1, by omega⟩
      have h2 : ts.head? = some t0 := by
        have h3 := congrArg List.head? hprog
        rw [hk, progression] at h3
        exact h3
      exact Option.some.inj (h1.symm.trans h2)
    have hgl : modelTs.getLast hmne = t0 + ((modelTs.length - 1 : Nat) : Int) * d := by
      have h1 := List.getLast?_eq_some_getLast hmne
      obtain ⟨k, hk⟩ : ∃ k, modelTs.length = k + 1 := ⟨modelTs.length - 1, by omega⟩
      have h2 : modelTs.getLast? = some (t0 + (k : Int) * d) := by
        have h3 := congrArg List.getLast? hm
        rw [hk, progression_getLast] at h3
        exact h3
      rw [hk]
      exact Option.some.inj (h1.symm.trans h2)
    have hn1 : ((modelTs.length - 1 : Nat) : ℚ) = (modelTs.length : ℚ) - 1 := by
      rw [Nat.cast_sub (by omega)]; simp
    have hsp := sum_progression t0 d (ts.head hne) modelTs.length
    rw [← hm, ht0, sub_self, mul_zero, zero_add] at hsp
    have hval : Is (exactOps.mul (exactOps.div (exactOps.add
        (lineAt exactOps (computeSlopeAndIntercept exactOps (ts.head hne) first (ts.getLast hne) last).1
          (computeSlopeAndIntercept exactOps (ts.head hne) first (ts.getLast hne) last).2 (ts.head hne))
        (lineAt exactOps (computeSlopeAndIntercept exactOps (ts.head hne) first (ts.getLast hne) last).1
          (computeSlopeAndIntercept exactOps (ts.head hne) first (ts.getLast hne) last).2 (ts.getLast hne)))
        (.fin false 2)) (exactOps.ofInt ((ts.length - r : Nat) : Int)))
        ((p + σ * (ts.head hne - ts.head hne) + (p + σ * (ts.getLast hne - ts.head hne))) / 2 *
          (((ts.length - r : Nat) : Int) : ℚ)) :=
      exact_mul (exact_div (exact_add (exact_lineAt l1 l2 _) (exact_lineAt l1 l2 _)) ⟨false, 2, rfl, rfl⟩ (by norm_num))
        (exact_ofInt _)
    rw [hsum, ht0]
    rw [l3, sub_self, mul_zero, add_zero, Int.cast_natCast, ← hmlen] at hval
    rw [hgl, ht0] at m3
    push_cast at m3
    rw [hn1] at m3
    have : (modelTs.length : ℚ) * p + τ * (modelTs.map fun t : Int => ((t : ℚ) - t0)).sum = (p + q) / 2 * modelTs.length := by
      have h2 : τ * (2 * (modelTs.map fun t : Int => ((t : ℚ) - t0)).sum) = modelTs.length * (q - p) := by
        rw [hsp, ← m3]; ring
      linarith
    rw [this, ← hmlen, ← ht0]
    exact hval
  · rw [if_neg hu]
    have hr0 : r = 0 := by
      rcases hreg with h | h
      · exact absurd h hu
      · exact h
    subst hr0
    dsimp only
    rw [if_neg (by omega)]
    refine ⟨_, rfl, ?_⟩
    have hmt : modelTs = ts := by rw [hmodel]; simp
    subst hmt
    rw [hsum]
    have := foldl_exact (fun t => lineAt exactOps
        (computeSlopeAndIntercept exactOps (modelTs.head hne) first (modelTs.getLast hne) last).1
        (computeSlopeAndIntercept exactOps (modelTs.head hne) first (modelTs.getLast hne) last).2 t)
      (fun t => p + τ * (t - modelTs.head hne)) (fun t => exact_lineAt m1 m2 t) modelTs
      (acc := .fin false 0) (a := 0) ⟨false, 0, rfl, rfl⟩
    rw [zero_add] at this
    rw [Nat.sub_zero, List.take_length]
    have e := sum_affine p τ (modelTs.head hne) modelTs
    rw [← e]
    exact this

/-- Eight times `1` followed by `5` and `3`. -/
def constantSegment : Segment :=
  ⟨.pmcMean, 0, 9, [10], 0x3f800000, 0x40a00000, [], [194, 87, 242, 1, 192, 2]⟩

example : tryCompressUnivariate exactLog2 .lossless [0, 1, 2, 3, 4, 5, 6, 7, 8, 9]
      (List.replicate 8 0x3f800000 ++ [0x40a00000, 0x40400000]) = .segments [constantSegment] ∧
    grid constantSegment = some ([0, 1, 2, 3, 4, 5, 6, 7, 8, 9], List.replicate 8 0x3f800000 ++ [0x40a00000, 0x40400000]) ∧
    segmentLen constantSegment.startTime constantSegment.endTime constantSegment.timestamps = some 10 ∧
    segmentSum constantSegment = some (.fin false 16) := by decide +kernel

/-- Ten irregular points on the line `x` and the value `5` at `1000`. -/
def irregularSegment : Segment := ⟨.swing, 0, 1000, [192, 64, 64, 127], 0, 0x41200000, [], [206, 22, 1]⟩

/-- **C12** is false of the code for linear models with residuals at irregular timestamps: the line is
computed with the timestamp of the last residual instead of the last timestamp of the model. The points
of this segment, which the compression produces, sum to `51`, the sum that is computed is below `6`. -/
theorem C12_sum_linear_wrong :
    tryCompressUnivariate exactLog2 .lossless [0, 1, 2, 3, 4, 5, 6, 7, 8, 10, 1000]
      [0, 0x3f800000, 0x40000000, 0x40400000, 0x40800000, 0x40a00000, 0x40c00000, 0x40e00000, 0x41000000, 0x41200000,
        0x40a00000] = .segments [irregularSegment] ∧
    (∃ ts ws, grid irregularSegment = some (ts, ws) ∧ exactSum ws = 51) ∧
    ∃ sum, segmentSum irregularSegment = some sum ∧ sum.lt (.fin false 6) = true := by
  refine ⟨by decide +kernel, ⟨[0, 1, 2, 3, 4, 5, 6, 7, 8, 10, 1000],
    [0, 0x3f800000, 0x40000000, 0x40400000, 0x40800000, 0x40a00000, 0x40c00000, 0x40e00000, 0x41000000, 0x41200000,
        0x40a00000], by decide +kernel, by decide +kernel⟩, .fin false (5725225 / 1048576), by decide +kernel, by decide +kernel⟩

end ModelarDB.Props
