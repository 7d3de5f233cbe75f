import Verif.Props.C12
import Verif.Lemmas.LinearSum
/-
C12 for linear models with the rounding of the code.
-/
namespace ModelarDB.Props
open Model Spec Lemmas

/-- The timestamps of a linear model and their number. -/
theorem model_timestamps {ts : List Int} (hne : ts ≠ []) (hinc : StrictlyIncreasing ts) {r : Nat} (hr : r + 2 ≤ ts.length) {modelTs : List Int}
    (hmodel : modelTs = ts.take (ts.length - r)) (hmne : modelTs ≠ []) :
    modelTs.length = ts.length - r ∧ modelTs.head hmne = ts.head hne ∧ ts.head hne < modelTs.getLast hmne ∧
    modelTs.getLast hmne ≤ ts.getLast hne ∧ ∀ t ∈ modelTs, ts.head hne ≤ t ∧ t ≤ modelTs.getLast hmne := by
  have hmlen : modelTs.length = ts.length - r := by rw [hmodel, List.length_take]; omega
  have hhead : modelTs.head hmne = ts.head hne := by
    subst hmodel
    rw [List.head_eq_getElem, List.head_eq_getElem, List.getElem_take]
  have hglm : modelTs.getLast hmne = ts[ts.length - r - 1] := by
    subst hmodel
    rw [List.getLast_eq_getElem, List.getElem_take]
    congr 1
    omega
  have hminc : StrictlyIncreasing modelTs := by
    subst hmodel
    exact hinc.sublist (List.take_sublist _ _)
  refine ⟨hmlen, hhead, ?_, ?_, ?_⟩
  · rw [hglm, List.head_eq_getElem]
    exact List.pairwise_iff_getElem.mp hinc 0 (ts.length - r - 1) (by omega) (by omega) (by omega)
  · rw [hglm, List.getLast_eq_getElem]
    rcases Nat.eq_or_lt_of_le (show ts.length - r - 1 ≤ ts.length - 1 by omega) with h | h
    · simp only [h, le_refl]
    · exact Int.le_of_lt (List.pairwise_iff_getElem.mp hinc _ _ (by omega) (by omega) h)
  · intro t ht
    obtain ⟨i, hi, rfl⟩ := List.mem_iff_getElem.mp ht
    rw [← hhead, List.head_eq_getElem, List.getLast_eq_getElem]
    constructor
    · rcases Nat.eq_zero_or_pos i with h | h
      · simp only [h, le_refl]
      · exact Int.le_of_lt (List.pairwise_iff_getElem.mp hminc 0 i (by omega) hi h)
    · rcases Nat.eq_or_lt_of_le (show i ≤ modelTs.length - 1 by omega) with h | h
      · simp only [h, le_refl]
      · exact Int.le_of_lt (List.pairwise_iff_getElem.mp hminc i _ hi (by omega) h)

/-- The sum of the values of a line at equally spaced timestamps. -/
theorem sum_lineThrough {t0 d : Int} {n : Nat} (hn : 2 ≤ n) (hd : 0 < d) (p q : ℚ) :
    ((progression t0 d n).map (lineThrough t0 (t0 + ((n - 1 : Nat) : Int) * d) p q)).sum = (p + q) / 2 * n := by
  have hn1 : ((n - 1 : Nat) : ℚ) = (n : ℚ) - 1 := by rw [Nat.cast_sub (by omega)]; simp
  have hdq : (0 : ℚ) < d := by exact_mod_cast hd
  have hnq : (2 : ℚ) ≤ n := by exact_mod_cast hn
  have hD : ((t0 + ((n - 1 : Nat) : Int) * d : Int) : ℚ) - t0 = ((n : ℚ) - 1) * d := by
    push_cast
    rw [hn1]
    ring
  have he : (progression t0 d n).map (lineThrough t0 (t0 + ((n - 1 : Nat) : Int) * d) p q) =
      (progression t0 d n).map fun t : Int => p + (q - p) / (((n : ℚ) - 1) * d) * ((t : ℚ) - t0) := by
    refine List.map_congr_left fun t _ => ?_
    unfold lineThrough
    rw [hD]
    ring
  rw [he, sum_affine]
  have hsp := sum_progression t0 d t0 n
  rw [sub_self, mul_zero, zero_add] at hsp
  have h0 : ((n : ℚ) - 1) ≠ 0 := by
    intro h
    linarith
  rw [progression_length]
  have hs : ((progression t0 d n).map fun t : Int => ((t : ℚ) - t0)).sum = d * (n * (n - 1)) / 2 := by linarith
  rw [hs]
  field_simp
  ring

/-- **C12** for linear models with rounding: the sum that is computed differs from the exact sum of the values that are read by at most
`X / 2 ^ 44 + M / 2 ^ 20` for each value, where `M` is a bound for the first and last value and `X` is `M` times the ratio of the largest timestamp
to the duration of the model, provided that the timestamps are regular or that there are no residuals. -/
theorem C12_sum_linear_rounding_partial (ts : List Int) (hne : ts ≠ []) (hrange : ∀ t ∈ ts, IsI64 t)
    (hinc : StrictlyIncreasing ts) (hsize : ts.length ≤ 2 ^ 24) (r : Nat) (hr : r + 2 ≤ ts.length)
    (hspan : ts.getLast hne - ts.head hne < 2 ^ 63)
    (hreg : areUncompressedTimestampsRegular ts = true ∨ r = 0)
    (modelTs : List Int) (hmodel : modelTs = ts.take (ts.length - r)) (hmne : modelTs ≠ [])
    (first last : FVal) (p q : ℚ) (hp : Is first p) (hq : Is last q) (of : Ok first)
    (M T X : ℚ) (hpM : |p| ≤ M) (hqM : |q| ≤ M) (hM : pow2 (-126) ≤ M) (hT : ∀ t ∈ ts, |(t : ℚ)| ≤ T) (hT64 : T ≤ 2 ^ 64)
    (hX : X = M * T / ((modelTs.getLast hmne : ℚ) - ts.head hne)) (hbig : (ts.length : ℚ) * (M + X) ≤ 2 ^ 120) :
    ∃ sum S, swingSum f64Ops (ts.head hne) (ts.getLast hne) (compressResidualTimestamps ts) first last r = some sum ∧ Is sum S ∧
      |S - ((swingGrid f64Ops (modelTs.head hmne) (modelTs.getLast hmne) first last modelTs).map valueOf).sum| ≤
        modelTs.length * (X * (1 / 2 ^ 44) + M * (1 / 2 ^ 20)) := by
  obtain ⟨hmlen, hhead, hmlt, hmle, hmem⟩ := model_timestamps hne hinc hr hmodel hmne
  obtain ⟨hdec, hsl⟩ := roundtrip_and_length ts hne hrange (strict_nonDecreasing hinc) (by omega) (strict_ends ts hne hinc)
  have hmts : ∀ t ∈ modelTs, t ∈ ts := by
    subst hmodel
    exact fun t ht => List.mem_of_mem_take ht
  have hT0 := hT _ (List.head_mem hne)
  have hTl := hT _ (List.getLast_mem hne)
  have hM0 : 0 ≤ M := le_trans (abs_nonneg _) hpM
  have hTn : 0 ≤ T := le_trans (abs_nonneg _) hT0
  have hD0 : (0 : ℚ) < (modelTs.getLast hmne : ℚ) - ts.head hne := by
    have : (ts.head hne : ℚ) < modelTs.getLast hmne := by exact_mod_cast hmlt
    linarith
  have hX0 : 0 ≤ X := by rw [hX]; exact div_nonneg (mul_nonneg hM0 hTn) hD0.le
  have hlen1 : (2 : ℚ) ≤ ts.length := by exact_mod_cast (show 2 ≤ ts.length by omega)
  have hn1 : (2 : ℚ) ≤ modelTs.length := by exact_mod_cast (show 2 ≤ modelTs.length by omega)
  have hnle : (modelTs.length : ℚ) ≤ ts.length := by exact_mod_cast (show modelTs.length ≤ ts.length by omega)
  have hn24 : (modelTs.length : ℚ) ≤ 2 ^ 24 := by exact_mod_cast (show modelTs.length ≤ 2 ^ 24 by omega)
  have hMX : M + X ≤ 2 ^ 120 := by
    have : 1 * (M + X) ≤ ts.length * (M + X) := mul_le_mul_of_nonneg_right (by linarith) (by linarith)
    linarith
  have hnMX : (modelTs.length : ℚ) * (M + X) ≤ 2 ^ 120 := le_trans (mul_le_mul_of_nonneg_right hnle (by linarith)) hbig
  -- The values that are read.
  have hgrid : |((swingGrid f64Ops (modelTs.head hmne) (modelTs.getLast hmne) first last modelTs).map valueOf).sum -
      (modelTs.map (lineThrough (ts.head hne) (modelTs.getLast hmne) p q)).sum| ≤ modelTs.length * (X * (1 / 2 ^ 46) + M * (1 / 2 ^ 22)) := by
    unfold swingGrid
    rw [hhead, List.map_map]
    refine sum_near _ _ _ modelTs fun t ht => ?_
    obtain ⟨h1, h2⟩ := hmem t ht
    exact near_read hp hq of hpM hqM hM (by linarith) (by linarith) hmlt (by omega) hT0 (hT t (hmts t ht)) hT64 hX.ge h1 h2
  have hnM0 : 0 ≤ modelTs.length * M := mul_nonneg (by linarith) hM0
  have hnX0 : 0 ≤ modelTs.length * X := mul_nonneg (by linarith) hX0
  rw [mul_add] at hgrid ⊢
  unfold swingSum
  dsimp only
  rw [compressed_regular_iff hrange (by omega) (by omega), hsl, hdec]
  have hlt : ts.head hne < ts.getLast hne := lt_of_lt_of_le hmlt hmle
  by_cases hu : areUncompressedTimestampsRegular ts = true
  · rw [if_pos hu]
    dsimp only
    rw [if_neg (by omega)]
    obtain ⟨t0, d, hd, hprog⟩ := regular_is_progression hrange hinc (by omega) hu
    have hm : modelTs = progression t0 d modelTs.length := by
      have h1 := progression_take t0 d ts.length (ts.length - r)
      rw [← hprog, ← hmodel, Nat.min_eq_left (by omega), ← hmlen] at h1
      exact h1
    have ht0 : ts.head hne = t0 := by
      have h1 : ts.head? = some (ts.head hne) := List.head?_eq_some_head hne
      obtain ⟨k, hk⟩ : ∃ k, ts.length = k + 1 := ⟨ts.length - 1, by omega⟩
      have h2 : ts.head? = some t0 := by
        have h3 := congrArg List.head? hprog
        rw [hk, progression] at h3
        exact h3
      exact Option.some.inj (h1.symm.trans h2)
    have hgl : modelTs.getLast hmne = t0 + ((modelTs.length - 1 : Nat) : Int) * d := by
      have h1 := List.getLast?_eq_some_getLast hmne
      obtain ⟨k, hk⟩ : ∃ k, modelTs.length = k + 1 := ⟨modelTs.length - 1, by omega⟩
      have h2 : modelTs.getLast? = some (t0 + (k : Int) * d) := by
        have h3 := congrArg List.getLast? hm
        rw [hk, progression_getLast] at h3
        exact h3
      rw [hk]
      exact Option.some.inj (h1.symm.trans h2)
    have hline : (modelTs.map (lineThrough (ts.head hne) (modelTs.getLast hmne) p q)).sum = (p + q) / 2 * modelTs.length := by
      rw [hgl, ht0]
      have h1 := sum_lineThrough (t0 := t0) (d := d) (n := modelTs.length) (by omega) hd p q
      rwa [← hm] at h1
    rw [hline] at hgrid
    have hXs : M * T / ((ts.getLast hne : ℚ) - ts.head hne) ≤ X := by
      rw [hX]
      have : (modelTs.getLast hmne : ℚ) ≤ ts.getLast hne := by exact_mod_cast hmle
      exact div_le_div_of_nonneg_left (mul_nonneg hM0 hTn) hD0 (by linarith)
    have hf := near_line hp hq of hpM hqM hM (by linarith) hlt hspan hT0 hT0 hT64 hXs (le_refl _) hlt.le
    have hl := near_line hp hq of hpM hqM hM (by linarith) hlt hspan hT0 hTl hT64 hXs hlt.le (le_refl _)
    have hD1 : (0 : ℚ) < (ts.getLast hne : ℚ) - ts.head hne := by
      have : (ts.head hne : ℚ) < ts.getLast hne := by exact_mod_cast hlt
      linarith
    rw [show lineThrough (ts.head hne) (ts.getLast hne) p q (ts.head hne) = p by simp [lineThrough]] at hf
    rw [show lineThrough (ts.head hne) (ts.getLast hne) p q (ts.getLast hne) = q by
      unfold lineThrough; rw [div_self hD1.ne']; ring] at hl
    rw [← hmlen]
    obtain ⟨S, hS, hSe⟩ := near_regular hf hl hpM hqM hM (n := modelTs.length) (by omega) (by omega) (by
      have e : (modelTs.length : ℚ) * (M + (X * (1 / 2 ^ 47) + M * (1 / 2 ^ 47))) =
        modelTs.length * M + (modelTs.length * X * (1 / 2 ^ 47) + modelTs.length * M * (1 / 2 ^ 47)) := by ring
      rw [e]
      rw [mul_add] at hnMX
      linarith)
    refine ⟨_, S, rfl, hS, ?_⟩
    have e : (modelTs.length : ℚ) * ((X * (1 / 2 ^ 47) + M * (1 / 2 ^ 47)) * 3 + M * (1 / 2 ^ 22)) =
        modelTs.length * X * (3 / 2 ^ 47) + modelTs.length * M * (3 / 2 ^ 47 + 1 / 2 ^ 22) := by ring
    rw [e] at hSe
    have a := abs_le.mp hSe
    have b := abs_le.mp hgrid
    exact abs_le.mpr ⟨by linarith, by linarith⟩
  · rw [if_neg hu]
    have hr0 : r = 0 := by
      rcases hreg with h | h
      · exact absurd h hu
      · exact h
    subst hr0
    dsimp only
    rw [if_neg (by omega)]
    have hmt : modelTs = ts := by rw [hmodel]; simp
    subst hmt
    rw [Nat.sub_zero, List.take_length]
    have htiny := tiny_le hM
    have htp := tiny_pos
    have h150 := pow150_le hM
    have hnM : M ≤ modelTs.length * M := by
      have := mul_le_mul_of_nonneg_right (show (1 : ℚ) ≤ modelTs.length by linarith) hM0
      linarith
    rw [mul_add] at hnMX
    have hfold := near_fold (fun t => lineAt f64Ops
        (computeSlopeAndIntercept f64Ops (modelTs.head hne) first (modelTs.getLast hne) last).1
        (computeSlopeAndIntercept f64Ops (modelTs.head hne) first (modelTs.getLast hne) last).2 t)
      (lineThrough (modelTs.head hne) (modelTs.getLast hne) p q) (M := M) (E := X * (1 / 2 ^ 47) + M * (1 / 2 ^ 47))
      (B := modelTs.length * M * 2 + modelTs.length * X * (1 / 2 ^ 40)) modelTs
      (fun t ht => near_line hp hq of hpM hqM hM (by linarith) hlt hspan hT0 (hT t ht) hT64 hX.ge (hmem t ht).1 (hmem t ht).2)
      (fun t ht => lineThrough_abs hpM hqM hlt (hmem t ht).1 (hmem t ht).2) (by linarith) hM0 (by linarith) (by linarith)
      (acc := .fin false 0) (a := 0) (k := 0) (by simp) (by simpa using near_of_is (show Is (.fin false 0) 0 from ⟨false, 0, rfl, rfl⟩)) (by
        rw [zero_add]
        have e : (modelTs.length : ℚ) * (M + (X * (1 / 2 ^ 47) + M * (1 / 2 ^ 47) + (modelTs.length * M * 2 + modelTs.length * X * (1 / 2 ^ 40)) * (1 / 2 ^ 53) + tiny)) =
          modelTs.length * M * (1 + 1 / 2 ^ 47) + modelTs.length * X * (1 / 2 ^ 47) + modelTs.length * (modelTs.length * M) * (2 / 2 ^ 53) +
            modelTs.length * (modelTs.length * X) * (1 / 2 ^ 93) + modelTs.length * tiny := by ring
        have h1 : modelTs.length * (modelTs.length * M) ≤ 2 ^ 24 * (modelTs.length * M) := mul_le_mul_of_nonneg_right hn24 hnM0
        have h2 : modelTs.length * (modelTs.length * X) ≤ 2 ^ 24 * (modelTs.length * X) := mul_le_mul_of_nonneg_right hn24 hnX0
        have h3 : modelTs.length * tiny ≤ 2 ^ 24 * tiny := mul_le_mul_of_nonneg_right hn24 htp.le
        rw [e]
        linarith)
    rw [zero_add, zero_add] at hfold
    have hsumabs : |(modelTs.map (lineThrough (modelTs.head hne) (modelTs.getLast hne) p q)).sum| ≤ modelTs.length * M := by
      have := sum_near (lineThrough (modelTs.head hne) (modelTs.getLast hne) p q) (fun _ => 0) M modelTs
        (fun t ht => by rw [sub_zero]; exact lineThrough_abs hpM hqM hlt (hmem t ht).1 (hmem t ht).2)
      simpa using this
    have hE : (modelTs.length : ℚ) *
        (X * (1 / 2 ^ 47) + M * (1 / 2 ^ 47) + (modelTs.length * M * 2 + modelTs.length * X * (1 / 2 ^ 40)) * (1 / 2 ^ 53) + tiny) ≤
        modelTs.length * X * (1 / 2 ^ 46) + modelTs.length * M * (1 / 2 ^ 27) := by
      have e : (modelTs.length : ℚ) *
          (X * (1 / 2 ^ 47) + M * (1 / 2 ^ 47) + (modelTs.length * M * 2 + modelTs.length * X * (1 / 2 ^ 40)) * (1 / 2 ^ 53) + tiny) =
          modelTs.length * M * (1 / 2 ^ 47) + modelTs.length * X * (1 / 2 ^ 47) + modelTs.length * (modelTs.length * M) * (2 / 2 ^ 53) +
            modelTs.length * (modelTs.length * X) * (1 / 2 ^ 93) + modelTs.length * tiny := by ring
      have h1 : modelTs.length * (modelTs.length * M) ≤ 2 ^ 24 * (modelTs.length * M) := mul_le_mul_of_nonneg_right hn24 hnM0
      have h2 : modelTs.length * (modelTs.length * X) ≤ 2 ^ 24 * (modelTs.length * X) := mul_le_mul_of_nonneg_right hn24 hnX0
      have h3 : modelTs.length * tiny ≤ 2 ^ 24 * tiny := mul_le_mul_of_nonneg_right hn24 htp.le
      rw [e]
      linarith
    have hok : ∀ (f : Int → FVal) (l : List Int) (acc : FVal), Ok acc → Ok (l.foldl (fun sum t => f64Ops.add sum (f t)) acc) := by
      intro f l
      induction l with
      | nil => exact fun _ h => h
      | cons t l ih => exact fun _ _ => ih _ ok_add
    obtain ⟨S, hS, hSe⟩ := (convert32 (hok _ _ (.fin false 0) (show Ok (FVal.fin false 0) from le_refl (0 : ℚ))) (hfold.mono hE) (B := modelTs.length * M * 2 + modelTs.length * X * (1 / 2 ^ 40))
      (by linarith) (by linarith)).1
    refine ⟨_, S, rfl, hS, ?_⟩
    have a := abs_le.mp hSe
    have b := abs_le.mp hgrid
    exact abs_le.mpr ⟨by linarith, by linarith⟩

theorem valueOf_is {x : FVal} {q : ℚ} (h : Is x q) : valueOf x = q := by
  obtain ⟨s, m, rfl, h⟩ := h
  exact h

theorem num32_of_isF32 {x : FVal} {q : ℚ} (h : IsF32 x) (hq : Is x q) : Num32 x q := by
  obtain ⟨s, m, rfl, rfl⟩ := hq
  have := num32_ofBits (b := (FVal.fin s m).toBits32) (by rw [ofBits_toBits h]; rfl)
  rw [ofBits_toBits h] at this
  obtain ⟨q', hq'⟩ := this
  exact is_unique hq'.is (is_fin s m) ▸ hq'

theorem isF32_toValue {x : FVal} (h : Ok x) : IsF32 (f64Ops.toValue x) :=
  isF32_convert _ fun s q hq => by rw [hq] at h; exact h

/-- The sum is a binary32 number. -/
theorem swingSum_isF32 {t0 t1 : Int} {bytes : List Nat} {first last : FVal} {r : Nat} {sum : FVal}
    (h : swingSum f64Ops t0 t1 bytes first last r = some sum) : IsF32 sum := by
  unfold swingSum at h
  dsimp only at h
  split at h
  · split at h
    · cases h
    · split at h
      · cases h
      · injection h with h
        subst h
        exact isF32_toValue (ok_mul (ok_div ok_add (show (0 : ℚ) ≤ 2 by norm_num)) (ok_ofInt _))
  · split at h
    · cases h
    · split at h
      · cases h
      · injection h with h
        subst h
        have hok : ∀ (f : Int → FVal) (l : List Int) (acc : FVal), Ok acc → Ok (l.foldl (fun sum t => f64Ops.add sum (f t)) acc) := by
          intro f l
          induction l with
          | nil => exact fun _ h => h
          | cons t l ih => exact fun _ _ => ih _ ok_add
        exact isF32_toValue (hok _ _ _ (show Ok (FVal.fin false 0) from le_refl (0 : ℚ)))

/-- The errors of the sum of the model, of the sum of the residuals and of their addition. -/
theorem linear_total {R S b P Q A B E g u : ℚ} (h1 : |S - P| ≤ E) (h2 : |b - Q| ≤ (g - 1) * B)
    (h3 : |R - (S + b)| ≤ (A + B + (E + (g - 1) * B)) * u) (h4 : E * u ≤ E) (h5 : A * u ≤ (g * (1 + u) - 1) * A) :
    |R - (P + Q)| ≤ 2 * E + (g * (1 + u) - 1) * (A + B) := by
  obtain ⟨a1, a2⟩ := abs_le.mp h1
  obtain ⟨b1, b2⟩ := abs_le.mp h2
  obtain ⟨c1, c2⟩ := abs_le.mp h3
  have e : (A + B + (E + (g - 1) * B)) * u + (g - 1) * B = A * u + E * u + (g * (1 + u) - 1) * B := by ring
  have d : (g * (1 + u) - 1) * (A + B) = (g * (1 + u) - 1) * A + (g * (1 + u) - 1) * B := by ring
  rw [d]
  exact abs_le.mpr ⟨by linarith, by linarith⟩

/-- **C12** for segments with a linear model and with or without residuals: the sum is computed and, if it is finite, differs from the exact sum of
the points that are read by at most the rounding of the line, which depends on the timestamps, and of the addition of the residuals, provided that
the timestamps are regular or that there are no residuals, and that the residuals are read with the last value of the model. -/
theorem C12_sum_linear_partial (s : Segment) (hty : s.modelType = .swing) (ts : List Int) (hne : ts ≠ []) (hrange : ∀ t ∈ ts, IsI64 t)
    (hinc : StrictlyIncreasing ts) (hsize : ts.length ≤ 2 ^ 24) (hspan : ts.getLast hne - ts.head hne < 2 ^ 63)
    (hstart : s.startTime = ts.head hne) (hend : s.endTime = ts.getLast hne) (hts : s.timestamps = compressResidualTimestamps ts)
    (r n : Nat) (hr : r = residualsLength s.residuals) (hn : n + r = ts.length) (hn2 : 2 ≤ n)
    (hreg : areUncompressedTimestampsRegular ts = true ∨ s.residuals = [])
    (first last : Nat) (hdec : decodeValuesForSwing s.minValue s.maxValue s.values = some (first, last))
    (hfirst : (FVal.ofBits32 first).isFinite = true) (hlast : (FVal.ofBits32 last).isFinite = true)
    (M T X : ℚ) (hpM : |valueOf (FVal.ofBits32 first)| ≤ M) (hqM : |valueOf (FVal.ofBits32 last)| ≤ M) (hM : pow2 (-126) ≤ M)
    (hT : ∀ t ∈ ts, |(t : ℚ)| ≤ T) (hT64 : T ≤ 2 ^ 64)
    (hX : X = M * T / ((ts[n - 1]'(by omega) : ℚ) - ts.head hne)) (hbig : (ts.length : ℚ) * (M + X) ≤ 2 ^ 120)
    (ws : List Nat) (hgrid : grid s = some (ts, ws)) (hws : ∀ w ∈ ws, (FVal.ofBits32 w).isFinite = true)
    (hsame : s.residuals = [] ∨ ws[n - 1]? = some last) :
    ∃ sum, segmentSum s = some sum ∧ (sum.isFinite = true → ∃ S, Is sum S ∧ |S - exactSum ws| ≤
      2 * n * (X * (1 / 2 ^ 44) + M * (1 / 2 ^ 20)) + ((1 + 1 / 2 ^ 24) ^ (r + 1) - 1) * exactAbsSum ws) := by
  obtain ⟨hdts, hsl⟩ := roundtrip_and_length ts hne hrange (strict_nonDecreasing hinc) (by omega) (strict_ends ts hne hinc)
  rw [← hstart, ← hend, ← hts] at hdts hsl
  obtain ⟨p, hp⟩ := num32_ofBits hfirst
  obtain ⟨q, hq⟩ := num32_ofBits hlast
  have hmne : ts.take (ts.length - r) ≠ [] := by
    rw [Ne, List.take_eq_nil_iff]
    simp [hne]
    omega
  have hgl : (ts.take (ts.length - r)).getLast hmne = ts[n - 1]'(by omega) := by
    rw [List.getLast_eq_getElem, List.getElem_take]
    congr 1
    rw [List.length_take]
    omega
  have hmlen : (ts.take (ts.length - r)).length = n := by rw [List.length_take]; omega
  have hM0 : 0 ≤ M := le_trans (abs_nonneg _) hpM
  have hrr : areUncompressedTimestampsRegular ts = true ∨ r = 0 := by
    rcases hreg with h | h
    · exact Or.inl h
    · right; rw [hr, h]; rfl
  obtain ⟨msum, S, hms, hS, hSe⟩ := C12_sum_linear_rounding_partial ts hne hrange hinc hsize r (by omega) hspan hrr _ rfl hmne
    (FVal.ofBits32 first) (FVal.ofBits32 last) p q hp.is hq.is (ok_ofBits _) M T X (by rwa [hp.value] at hpM) (by rwa [hq.value] at hqM) hM hT hT64
    (by rw [hgl]; exact hX) hbig
  rw [hmlen] at hSe
  have hhead : (ts.take (ts.length - r)).head hmne = ts.head hne := by
    rw [List.head_eq_getElem, List.head_eq_getElem, List.getElem_take]
  rw [hhead] at hSe
  have hms32 : Num32 msum S := num32_of_isF32 (swingSum_isF32 hms) hS
  rw [← hstart, ← hend, ← hts, hr] at hms
  -- The values of the model.
  set values := (swingGrid f64Ops (ts.head hne) ((ts.take (ts.length - r)).getLast hmne) (FVal.ofBits32 first) (FVal.ofBits32 last)
    (ts.take (ts.length - r))) with hvalues
  have hbits : exactSum (values.map FVal.toBits32) = (values.map valueOf).sum := by
    unfold exactSum
    rw [List.map_map]
    congr 1
    refine List.map_congr_left fun x hx => ?_
    rw [hvalues] at hx
    unfold swingGrid at hx
    obtain ⟨t, _, rfl⟩ := List.mem_map.mp hx
    show valueOf (FVal.ofBits32 (FVal.toBits32 _)) = _
    rw [ofBits_toBits (isF32_toValue (by unfold lineAt; exact ok_add))]
  rw [← hbits] at hSe
  have hvlen : (values.map FVal.toBits32).length = n := by
    rw [List.length_map, hvalues]
    unfold swingGrid
    rw [List.length_map, hmlen]
  have hX0 : 0 ≤ X := by
    rw [hX]
    have h1 := model_timestamps hne hinc (by omega) (r := r) rfl hmne
    have h2 : (ts.head hne : ℚ) < ts[n - 1]'(by omega) := by rw [← hgl]; exact_mod_cast h1.2.2.1
    exact div_nonneg (mul_nonneg hM0 (le_trans (abs_nonneg _) (hT _ (List.head_mem hne)))) (by linarith)
  have hE0 : 0 ≤ (n : ℚ) * (X * (1 / 2 ^ 44) + M * (1 / 2 ^ 20)) :=
    mul_nonneg (Nat.cast_nonneg _) (add_nonneg (mul_nonneg hX0 (by norm_num)) (mul_nonneg hM0 (by norm_num)))
  unfold grid at hgrid
  rw [hdts] at hgrid
  dsimp only at hgrid
  rw [← hr, if_neg (by omega)] at hgrid
  have hmv : s.modelValues (ts.take (ts.length - r)) = some (values.map FVal.toBits32) := by
    unfold Segment.modelValues
    rw [hty]
    dsimp only
    rw [hdec, List.getLast?_eq_some_getLast hmne]
    dsimp only
    rw [hvalues, hstart]
  rw [hmv] at hgrid
  dsimp only at hgrid
  unfold segmentSum
  rw [hsl]
  dsimp only
  rw [hty]
  dsimp only
  rw [hdec]
  dsimp only
  rw [hms]
  dsimp only
  rw [← hr, if_neg (by omega)]
  have hpow : (1 : ℚ) ≤ (1 + 1 / 2 ^ 24) ^ (r + 1) := one_le_pow₀ (by norm_num)
  by_cases hr0 : s.residuals.isEmpty = true
  · rw [if_pos hr0] at hgrid ⊢
    simp only [Option.some.injEq, Prod.mk.injEq, true_and] at hgrid
    subst hgrid
    refine ⟨msum, rfl, fun _ => ⟨S, hS, hSe.trans ?_⟩⟩
    have := mul_nonneg (sub_nonneg.mpr hpow) (exactAbsSum_nonneg (values.map FVal.toBits32))
    linarith
  · rw [if_neg hr0] at hgrid ⊢
    have hnil : s.residuals ≠ [] := by simpa using hr0
    have hvne : values.map FVal.toBits32 ≠ [] := by
      intro h
      rw [h] at hvlen
      simp at hvlen
      omega
    rw [List.getLast?_eq_some_getLast hvne] at hgrid
    dsimp only at hgrid
    have hdl : (ts.drop (ts.length - r)).length = r := by rw [List.length_drop]; omega
    rw [hdl] at hgrid
    cases hmg : macaqueVGrid s.residuals.dropLast r (some ((values.map FVal.toBits32).getLast hvne)) with
    | none => rw [hmg] at hgrid; cases hgrid
    | some rs =>
      rw [hmg] at hgrid
      simp only [Option.some.injEq, Prod.mk.injEq, true_and] at hgrid
      subst hgrid
      have hlastv : (values.map FVal.toBits32).getLast hvne = last := by
        rcases hsame with h | h
        · exact absurd h hnil
        · rw [List.getElem?_append_left (by omega)] at h
          rw [List.getLast_eq_getElem]
          rw [List.getElem?_eq_getElem (by omega)] at h
          simp only [hvlen]
          exact Option.some.inj h
      rw [hlastv] at hmg
      unfold macaqueVGrid at hmg
      unfold macaqueVSum
      cases hb : BitReader.tryNew s.residuals.dropLast with
      | none => rw [hb] at hmg; cases hmg
      | some bits =>
        rw [hb] at hmg
        dsimp only at hmg ⊢
        obtain ⟨h1, h2⟩ := run_runSum _ _ (.fin false 0) hmg
        rw [h1]
        refine ⟨_, rfl, fun hfin => ?_⟩
        have hrlen : rs.length = r := h2
        have hf2 : (foldAdd (.fin false 0) rs).isFinite = true := by
          by_contra hc
          rw [Bool.not_eq_true] at hc
          rw [add_not_finite_right hc] at hfin; cases hfin
        obtain ⟨b, hb32, hbe⟩ := foldAdd_error0 rs (fun w hw => hws w (by simp [hw])) hf2
        obtain ⟨R, hR, hRe⟩ := add_num32 hms32 hb32 hfin
        refine ⟨R, hR.is, ?_⟩
        rw [exactSum_append, exactAbsSum_append]
        rw [hrlen] at hbe
        have hu := unit32_pos
        rw [← unit32_eq]
        have hPA := exactSum_abs_le (values.map FVal.toBits32)
        have hQA := exactSum_abs_le rs
        set P := exactSum (values.map FVal.toBits32)
        set A := exactAbsSum (values.map FVal.toBits32)
        set Q := exactSum rs
        set B := exactAbsSum rs
        set E := (n : ℚ) * (X * (1 / 2 ^ 44) + M * (1 / 2 ^ 20)) with hEdef
        have hA : 0 ≤ A := (abs_nonneg P).trans hPA
        have hG : 1 ≤ (1 + unit32) ^ r := one_le_pow₀ (by linarith)
        have hab : |S + b| ≤ A + B + (E + ((1 + unit32) ^ r - 1) * B) := by
          have a1 := abs_le.mp hSe
          have a2 := abs_le.mp hbe
          have a3 := abs_le.mp hPA
          have a4 := abs_le.mp hQA
          exact abs_le.mpr ⟨by linarith, by linarith⟩
        have hu1 : unit32 ≤ 1 := by rw [unit32_eq]; norm_num
        have h5 : |S + b| * unit32 ≤ (A + B + (E + ((1 + unit32) ^ r - 1) * B)) * unit32 := mul_le_mul_of_nonneg_right hab hu.le
        have h6 : E * unit32 ≤ E := by nlinarith
        have h7 : A * unit32 ≤ ((1 + unit32) ^ (r + 1) - 1) * A := by
          have : unit32 ≤ (1 + unit32) ^ (r + 1) - 1 := by rw [pow_succ]; nlinarith
          nlinarith
        have e1 : 2 * (n : ℚ) * (X * (1 / 2 ^ 44) + M * (1 / 2 ^ 20)) = 2 * E := by rw [hEdef]; ring
        rw [e1]
        rw [pow_succ] at h7 ⊢
        generalize (1 + unit32) ^ r = g at *
        generalize unit32 = u at *
        exact linear_total hSe hbe (hRe.trans h5) h6 h7

/-- Ten points on a line with regular timestamps and the value `5` after them. -/
def regularSegment : Segment := ⟨.swing, 100, 1100, [11], 0, 0x41100000, [], [206, 46, 192, 1]⟩

/-- The compression produces the segment, its sum is `50`, and the hypotheses of `C12_sum_linear_partial` hold for it. -/
example : tryCompressUnivariate exactLog2 .lossless [100, 200, 300, 400, 500, 600, 700, 800, 900, 1000, 1100]
      [0, 0x3f800000, 0x40000000, 0x40400000, 0x40800000, 0x40a00000, 0x40c00000, 0x40e00000, 0x41000000, 0x41100000, 0x40a00000] =
        .segments [regularSegment] ∧
    segmentSum regularSegment = some (.fin false 50) ∧
    ∃ sum, segmentSum regularSegment = some sum ∧ (sum.isFinite = true → ∃ S, Is sum S ∧ |S - exactSum [0, 0x3f800000, 0x40000000, 0x40400000, 0x40800000, 0x40a00000, 0x40c00000, 0x40e00000,
        0x41000000, 0x41100000, 0x40a00000]| ≤
      2 * (10 : ℕ) * (10 * 1100 / ((1000 : ℤ) - (100 : ℤ)) * (1 / 2 ^ 44) + 10 * (1 / 2 ^ 20)) + ((1 + 1 / 2 ^ 24) ^ (1 + 1) - 1) *
        exactAbsSum [0, 0x3f800000, 0x40000000, 0x40400000, 0x40800000, 0x40a00000, 0x40c00000, 0x40e00000,
        0x41000000, 0x41100000, 0x40a00000]) :=
  ⟨by decide +kernel, by decide +kernel, C12_sum_linear_partial regularSegment rfl
    [100, 200, 300, 400, 500, 600, 700, 800, 900, 1000, 1100] (by decide) (by decide) (by unfold StrictlyIncreasing; decide) (by decide)
    (by decide) rfl rfl (by decide +kernel) 1 10 (by decide +kernel) rfl (by decide) (Or.inl (by decide +kernel)) 0 0x41100000 (by decide +kernel)
    (by decide +kernel) (by decide +kernel) 10 1100 _ (by decide +kernel) (by decide +kernel) (by decide +kernel) (by decide +kernel)
    (by decide +kernel) rfl (by decide +kernel) _ (by decide +kernel) (by decide +kernel) (Or.inr (by decide +kernel))⟩

/-- Eight points on a falling line and the value `1000` with the absolute error bound `0.1`, see `C11_residual_out_of_bound`. -/
def fallingSegment : Segment :=
  ⟨.swing, 1600000000000, 1600000000080, [9], 1065353215, 1148846080, [3, 0, 0, 64, 64], [194, 255, 176, 95, 255, 240, 1]⟩

/-- **C12** is false of the code for linear models with residuals at regular timestamps, too: the sum is computed from the residuals decoded relative
to the last value of the model that is stored and a query reads the residuals decoded relative to the last value that is reconstructed. The points
of this segment, which the compression produces, sum to more than `1087`, the sum that is computed is below `1017`. -/
theorem C12_sum_residual_wrong :
    tryCompressUnivariate exactLog2 (.absolute (FVal.ofBits32 0x3dcccccd))
      [1600000000000, 1600000000010, 1600000000020, 1600000000030, 1600000000040, 1600000000050, 1600000000060, 1600000000070, 1600000000080]
      [1077936128, 1076737755, 1075539383, 1074341010, 1072543451, 1070146706, 1067749961, 1065353216, 0x447a0000] = .segments [fallingSegment] ∧
    (∃ ts ws, grid fallingSegment = some (ts, ws) ∧ 1087 < exactSum ws) ∧
    ∃ sum, segmentSum fallingSegment = some sum ∧ sum.lt (.fin false 1017) = true := by
  refine ⟨by decide +kernel, ⟨[1600000000000, 1600000000010, 1600000000020, 1600000000030, 1600000000040, 1600000000050, 1600000000060,
    1600000000070, 1600000000080],
    [1077936128, 1076737760, 1075539392, 1074341024, 1072543488, 1070146688, 1067749952, 1065353216, 1149632511],
    by decide +kernel, by decide +kernel⟩, .fin false 1016, ?_, ?_⟩ <;> decide +kernel

end ModelarDB.Props
