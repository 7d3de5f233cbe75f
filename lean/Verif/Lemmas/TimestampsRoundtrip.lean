import Verif.Lemmas.Timestamps
import Verif.Model.Segment
/-
Round trip of whole lists of timestamps.
-/
namespace ModelarDB.Lemmas
open Model Spec

/-- Shape of a list with at least three elements. -/
theorem split_ends (ts : List Int) (h : 2 < ts.length) :
    ∃ t₀ t₁ rest tn, ts = t₀ :: t₁ :: (rest ++ [tn]) := by
  match ts, h with
  | t₀ :: t₁ :: t₂ :: rest, _ =>
    refine ⟨t₀, t₁, (t₂ :: rest).dropLast, (t₂ :: rest).getLast (by simp), ?_⟩
    rw [List.dropLast_concat_getLast]

/-- Round trip and length of non-decreasing timestamps that are not all equal. -/
theorem roundtrip_and_length (ts : List Int) (hne : ts ≠ []) (hrange : ∀ t ∈ ts, IsI64 t)
    (hinc : NonDecreasing ts) (hlen : ts.length < 2 ^ 63)
    (hdist : ts.length = 1 ∨ ts.head hne ≠ ts.getLast hne) :
    decompressAllTimestamps (ts.head hne) (ts.getLast hne) (compressResidualTimestamps ts) = some ts ∧
    segmentLen (ts.head hne) (ts.getLast hne) (compressResidualTimestamps ts) = some ts.length := by
  by_cases h2 : ts.length ≤ 2
  · have hc : compressResidualTimestamps ts = [] := by unfold compressResidualTimestamps; rw [if_pos h2]
    rw [hc]
    match ts, h2 with
    | [t], _ => simp [decompressAllTimestamps, segmentLen]
    | [t, u], _ =>
      have hne' : (t == u) = false := by simpa using hdist
      simp [decompressAllTimestamps, segmentLen, hne']
  · obtain ⟨t₀, t₁, rest, tn, rfl⟩ := split_ends ts (by omega)
    have hlast : (t₀ :: t₁ :: (rest ++ [tn])).getLast hne = tn :=
      List.getLast_concat (l := t₀ :: t₁ :: rest)
    have hlt : t₀ ≤ t₁ := by
      unfold NonDecreasing at hinc
      rw [List.pairwise_cons] at hinc
      exact hinc.1 t₁ (by simp)
    have h0 := hrange t₀ (by simp)
    have h1 := hrange t₁ (by simp)
    have hn := hrange tn (by simp)
    rw [hlast, List.head_cons] at hdist ⊢
    unfold compressResidualTimestamps
    rw [if_neg h2]
    by_cases hreg : areUncompressedTimestampsRegular (t₀ :: t₁ :: (rest ++ [tn])) = true
    · rw [if_pos hreg]
      have hd : 0 ≤ t₁ - t₀ ∧ t₁ - t₀ < 2 ^ 64 := by unfold IsI64 at h0 h1; omega
      have hprog := regularLoop_spec (t₁ :: (rest ++ [tn])) (t₁ - t₀) t₀ hd hrange hinc hreg
      have hplen : (t₁ :: (rest ++ [tn])).length + 1 = rest.length + 1 + 2 := by simp
      rw [hplen] at hprog
      have hgl := progression_getLast t₀ (t₁ - t₀) (rest.length + 1 + 1)
      rw [← hprog] at hgl
      have htn : tn = t₀ + ((rest.length + 1 + 1 : Nat) : Int) * (t₁ - t₀) := by
        have : (t₀ :: t₁ :: (rest ++ [tn])).getLast? = some tn := by
          rw [List.getLast?_eq_some_getLast hne, hlast]
        rw [this] at hgl
        exact Option.some.inj hgl
      have hd0 : 0 < t₁ - t₀ := by
        rcases hdist with hl | hl
        · simp at hl
        · rcases Int.lt_or_eq_of_le hd.1 with h | h
          · exact h
          · rw [← h, Int.mul_zero, Int.add_zero] at htn
            exact absurd htn.symm hl
      obtain ⟨r1, r2, r3, r4⟩ := regular_length_roundtrip _ hne hlen
      have hdec := regular_roundtrip t₀ (t₁ - t₀) (rest.length + 1) hd0 h0 (htn ▸ hn)
        (by simp at hlen; omega)
      rw [← hprog, ← htn] at hdec
      have hemp : (compressRegularResidualTimestamps (t₀ :: t₁ :: (rest ++ [tn]))).isEmpty = false := by
        cases hx : compressRegularResidualTimestamps (t₀ :: t₁ :: (rest ++ [tn])) with
        | nil => exact absurd hx r1
        | cons => rfl
      refine ⟨?_, ?_⟩
      · unfold decompressAllTimestamps
        rw [hemp, r3, hdec]; rfl
      · unfold segmentLen
        rw [hemp, r3, if_neg (by simp), if_neg (by simp), if_pos rfl, if_neg (by omega), r4]
    · rw [if_neg hreg]
      obtain ⟨i1, i2⟩ := irregular_roundtrip t₀ (t₁ :: rest) tn
        (fun t ht => hrange t (by simp only [List.mem_cons, List.mem_append] at ht ⊢; rcases ht with h | h <;> simp [h]))
      have hemp : (compressIrregularResidualTimestamps (t₀ :: (t₁ :: rest ++ [tn]))).isEmpty = false := by
        cases hx : compressIrregularResidualTimestamps (t₀ :: (t₁ :: rest ++ [tn])) with
        | nil => rw [hx] at i1; simp [areCompressedTimestampsRegular] at i1
        | cons => rfl
      have hdec : decompressAllTimestamps t₀ tn
          (compressIrregularResidualTimestamps (t₀ :: (t₁ :: rest ++ [tn]))) =
          some (t₀ :: t₁ :: (rest ++ [tn])) := by
        unfold decompressAllTimestamps
        rw [hemp, i1, i2]; rfl
      rw [List.cons_append] at hemp i1 hdec
      refine ⟨hdec, ?_⟩
      unfold segmentLen
      rw [hemp, i1, hdec]; rfl

theorem strict_ends (ts : List Int) (hne : ts ≠ []) (hinc : StrictlyIncreasing ts) :
    ts.length = 1 ∨ ts.head hne ≠ ts.getLast hne := by
  match ts, hne with
  | [t], _ => exact Or.inl rfl
  | t :: u :: rest, _ =>
    right
    have := (List.pairwise_cons.mp hinc).1 ((u :: rest).getLast (by simp)) (List.getLast_mem _)
    rw [List.head_cons, List.getLast_cons (by simp)]
    omega

theorem strict_nonDecreasing {ts : List Int} (hinc : StrictlyIncreasing ts) : NonDecreasing ts :=
  hinc.imp Int.le_of_lt

/-- A run of equal timestamps is regular with interval zero. -/
theorem regularLoop_replicate (n : Nat) (t : Int) : regularLoop 0 t (List.replicate n t) = true := by
  induction n with
  | zero => rfl
  | succ n ih =>
    rw [List.replicate_succ, regularLoop]
    have : wrapI64 (t - t) = 0 := by rw [Int.sub_self]; decide
    rw [this]
    simpa using ih

theorem regular_replicate (n : Nat) (t : Int) :
    areUncompressedTimestampsRegular (List.replicate n t) = true := by
  match n with
  | 0 => rfl
  | 1 => rfl
  | n + 2 =>
    have hz : wrapI64 (t - t) = 0 := by rw [Int.sub_self]; decide
    rw [List.replicate_succ, List.replicate_succ, areUncompressedTimestampsRegular, hz,
      ← List.replicate_succ]
    exact regularLoop_replicate (n + 1) t

end ModelarDB.Lemmas
