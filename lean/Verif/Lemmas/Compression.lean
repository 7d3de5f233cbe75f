import Verif.Model.Compression
import Verif.Lemmas.MacaqueV
import Verif.Lemmas.TimestampsRoundtrip
/-
The segments of a series are consecutive pieces of it.
-/
namespace ModelarDB.Lemmas
open Model Spec

/-- `fit` returns models of at least one point inside the series. -/
def GoodFit (fit : Nat → FittedModel) (n : Nat) : Prop :=
  ∀ i < n, (fit i).startIndex = i ∧ i ≤ (fit i).endIndex ∧ (fit i).endIndex < n ∧
    (fit i).modelType ≠ .macaqueV

/-- `s` stores the points from `a` to and including `b`. -/
inductive IsPiece (log2 : Log2) (fit : Nat → FittedModel) (eb : ErrorBound) (ts : List Int) (vs : List Nat)
    (s : Segment) (a b : Nat) : Prop
  | model (ha : a < ts.length) (hab : (fit a).endIndex ≤ b) (hres : b - (fit a).endIndex ≤ 255)
      (hb : b < ts.length) (h : (fit a).finish log2 eb b ts vs = some s)
      (hkept : (fit a).bytesPerValue.le (.fin false 4) = true)
  | separate (hab : a ≤ b) (hb : b < ts.length)
      (h : compressResidualsInSeparateSegment log2 eb a b ts vs = some s)

/-- The segments store the points from `a` to the one before `n` in consecutive pieces. -/
inductive Chain (log2 : Log2) (fit : Nat → FittedModel) (eb : ErrorBound) (ts : List Int) (vs : List Nat) :
    List Segment → Nat → Nat → Prop
  | nil (a : Nat) : Chain log2 fit eb ts vs [] a a
  | cons {s : Segment} {rest : List Segment} {a b n : Nat} (h : IsPiece log2 fit eb ts vs s a b)
      (hrest : Chain log2 fit eb ts vs rest (b + 1) n) : Chain log2 fit eb ts vs (s :: rest) a n

variable {log2 : Log2} {fit : Nat → FittedModel} {eb : ErrorBound} {ts : List Int} {vs : List Nat}

theorem Chain.append {l₁ l₂ : List Segment} {a b c : Nat} (h1 : Chain log2 fit eb ts vs l₁ a b)
    (h2 : Chain log2 fit eb ts vs l₂ b c) : Chain log2 fit eb ts vs (l₁ ++ l₂) a c := by
  induction h1 with
  | nil => exact h2
  | cons h _ ih => exact Chain.cons h (ih h2)

theorem finish_isSome (m : FittedModel) (e : Nat) (hs : m.startIndex < ts.length) (he : e < ts.length)
    (ht : m.modelType ≠ .macaqueV) : ∃ s, m.finish log2 eb e ts vs = some s := by
  unfold FittedModel.finish
  rw [List.getElem?_eq_getElem hs, List.getElem?_eq_getElem he]
  dsimp only
  split
  · cases h : m.modelType with
    | pmcMean => exact ⟨_, rfl⟩
    | swing => exact ⟨_, rfl⟩
    | macaqueV => exact absurd h ht
  · exact ⟨_, rfl⟩

theorem separate_isSome (a b : Nat) (ha : a < ts.length) (hb : b < ts.length) :
    ∃ s, compressResidualsInSeparateSegment log2 eb a b ts vs = some s := by
  unfold compressResidualsInSeparateSegment
  rw [List.getElem?_eq_getElem ha, List.getElem?_eq_getElem hb]
  exact ⟨_, rfl⟩

/-- Where the points that have not been stored begin. -/
def pendingStart : Option FittedModel → Nat
  | some m => m.startIndex
  | none => 0

/-- A pending model was returned by `fit` and ends before the current index. -/
def Pending (fit : Nat → FittedModel) (n current : Nat) : Option FittedModel → Prop
  | some m => ∃ i < n, m = fit i ∧ m.endIndex < current ∧ (fit i).bytesPerValue.le (.fin false 4) = true
  | none => True

theorem store_chain (hfit : GoodFit fit ts.length) (previous : Option FittedModel) (e : Nat)
    (he : e < ts.length) (hp : Pending fit ts.length (e + 1) previous) :
    ∃ segments, storeModelAndOrResiduals log2 eb previous e ts vs = some segments ∧
      Chain log2 fit eb ts vs segments (pendingStart previous) (e + 1) := by
  cases previous with
  | none =>
    obtain ⟨s, hs⟩ := separate_isSome (log2 := log2) (eb := eb) (ts := ts) (vs := vs) 0 e (by omega) he
    refine ⟨[s], ?_, Chain.cons (.separate (Nat.zero_le e) he hs) (Chain.nil _)⟩
    simp only [storeModelAndOrResiduals, hs]
  | some m =>
    obtain ⟨i, hi, rfl, hme, hkept⟩ := hp
    obtain ⟨h1, h2, h3, h4⟩ := hfit i hi
    simp only [storeModelAndOrResiduals, pendingStart, h1]
    split
    · rename_i hle
      obtain ⟨s, hs⟩ := finish_isSome (log2 := log2) (eb := eb) (ts := ts) (vs := vs) (fit i) e (by omega) he h4
      rw [hs]
      exact ⟨[s], rfl, Chain.cons (.model hi (by omega) hle he hs hkept) (Chain.nil _)⟩
    · rename_i hgt
      have : residualValuesMaxLength = 255 := rfl
      obtain ⟨s, hs⟩ := finish_isSome (log2 := log2) (eb := eb) (ts := ts) (vs := vs) (fit i) (fit i).endIndex
        (by omega) h3 h4
      obtain ⟨r, hr⟩ := separate_isSome (log2 := log2) (eb := eb) (ts := ts) (vs := vs) ((fit i).endIndex + 1) e
        (by omega) he
      rw [hs, hr]
      exact ⟨[s, r], rfl, Chain.cons (.model hi (by omega) (by omega) h3 hs hkept)
        (Chain.cons (.separate (by omega) he hr) (Chain.nil _))⟩

theorem loop_chain (hfit : GoodFit fit ts.length) (hne : ts ≠ []) (fuel current : Nat)
    (previous : Option FittedModel) (hfuel : ts.length < fuel + current) (hcur : current ≤ ts.length)
    (hp : Pending fit ts.length current previous)
    (h0 : current = 0 → previous = none) :
    ∃ segments, compressLoop log2 fit eb ts vs fuel current previous = some segments ∧
      Chain log2 fit eb ts vs segments (pendingStart previous) ts.length := by
  have hn : 0 < ts.length := List.length_pos_iff.mpr hne
  induction fuel generalizing current previous with
  | zero => omega
  | succ fuel ih =>
    unfold compressLoop
    by_cases hlt : current < ts.length
    · rw [if_pos hlt]
      dsimp only
      obtain ⟨h1, h2, h3, h4⟩ := hfit current hlt
      by_cases hbytes : (fit current).bytesPerValue.le (.fin false 4) = true
      · rw [if_pos hbytes]
        obtain ⟨rest, hr, hc⟩ := ih ((fit current).endIndex + 1) (some (fit current)) (by omega) (by omega)
          ⟨current, hlt, rfl, by omega, hbytes⟩ (by omega)
        simp only [pendingStart, h1] at hc
        by_cases hpos : current > 0
        · rw [if_pos hpos]
          obtain ⟨segments, hs, hc'⟩ := store_chain (log2 := log2) (eb := eb) (vs := vs) hfit previous (current - 1)
            (by omega) (by rwa [show current - 1 + 1 = current by omega])
          rw [hs, hr]
          rw [show current - 1 + 1 = current by omega] at hc'
          exact ⟨segments ++ rest, rfl, hc'.append hc⟩
        · rw [if_neg hpos]
          have : current = 0 := by omega
          subst this
          rw [h0 rfl]
          exact ⟨rest, hr, hc⟩
      · rw [if_neg hbytes]
        refine ih (current + 1) previous (by omega) (by omega) ?_ (by omega)
        cases previous with
        | none => trivial
        | some m =>
          obtain ⟨i, hi, he, hl, hk⟩ := hp
          exact ⟨i, hi, he, by omega, hk⟩
    · rw [if_neg hlt]
      have : current = ts.length := by omega
      subst this
      obtain ⟨segments, hs, hc⟩ := store_chain (log2 := log2) (eb := eb) (vs := vs) hfit previous (ts.length - 1)
        (by omega) (by rwa [show ts.length - 1 + 1 = ts.length by omega])
      rw [show ts.length - 1 + 1 = ts.length by omega] at hc
      exact ⟨segments, hs, hc⟩

/-! ### Slices -/

theorem sliceIncl_length {α : Type} (l : List α) {a b : Nat} (hb : b < l.length) :
    (sliceIncl l a b).length = b + 1 - a := by
  simp [sliceIncl]; omega

theorem sliceIncl_append {α : Type} (l : List α) {a b c : Nat} (hab : a ≤ b + 1) (hbc : b ≤ c) :
    sliceIncl l a b ++ sliceIncl l (b + 1) c = sliceIncl l a c := by
  unfold sliceIncl
  have h1 : l.take (b + 1) = (l.take (c + 1)).take (b + 1) := by
    rw [List.take_take]; congr 1; omega
  rw [h1]
  generalize l.take (c + 1) = l'
  rw [List.drop_take]
  have : (l'.drop (b + 1)) = (l'.drop a).drop (b + 1 - a) := by
    rw [List.drop_drop]; congr 1; omega
  rw [this, List.take_append_drop]

theorem sliceIncl_ne_nil {α : Type} (l : List α) {a b : Nat} (hab : a ≤ b) (hb : b < l.length) :
    sliceIncl l a b ≠ [] := by
  intro h
  have := sliceIncl_length l (a := a) hb
  rw [h] at this
  simp at this
  omega

theorem sliceIncl_head {α : Type} (l : List α) {a b : Nat} (hab : a ≤ b) (hb : b < l.length) :
    (sliceIncl l a b).head (sliceIncl_ne_nil l hab hb) = l[a]'(by omega) := by
  rw [List.head_eq_getElem]
  simp [sliceIncl]

theorem sliceIncl_getLast {α : Type} (l : List α) {a b : Nat} (hab : a ≤ b) (hb : b < l.length) :
    (sliceIncl l a b).getLast (sliceIncl_ne_nil l hab hb) = l[b] := by
  rw [List.getLast_eq_getElem]
  have := sliceIncl_length l (a := a) hb
  simp only [sliceIncl, List.getElem_drop, List.getElem_take] at this ⊢
  congr 1
  omega

theorem sliceIncl_sublist {α : Type} (l : List α) (a b : Nat) : (sliceIncl l a b).Sublist l :=
  (List.drop_sublist _ _).trans (List.take_sublist _ _)

theorem sliceIncl_mem {α : Type} {l : List α} {a b : Nat} {x : α} (h : x ∈ sliceIncl l a b) : x ∈ l :=
  (sliceIncl_sublist l a b).subset h

theorem sliceIncl_all {α : Type} (l : List α) (h : l ≠ []) : sliceIncl l 0 (l.length - 1) = l := by
  have := List.length_pos_iff.mpr h
  unfold sliceIncl
  rw [List.drop_zero, show l.length - 1 + 1 = l.length by omega, List.take_length]

/-! ### Timestamps of a piece -/

theorem slice_timestamps (hrange : ∀ t ∈ ts, IsI64 t) (hinc : StrictlyIncreasing ts) (hlen : ts.length < 2 ^ 63)
    {a b : Nat} (hab : a ≤ b) (hb : b < ts.length) :
    decompressAllTimestamps (ts[a]'(by omega)) ts[b] (compressResidualTimestamps (sliceIncl ts a b)) =
      some (sliceIncl ts a b) ∧
    segmentLen (ts[a]'(by omega)) ts[b] (compressResidualTimestamps (sliceIncl ts a b)) =
      some (sliceIncl ts a b).length := by
  have hne := sliceIncl_ne_nil ts hab hb
  have hinc' : StrictlyIncreasing (sliceIncl ts a b) := List.Pairwise.sublist (sliceIncl_sublist ts a b) hinc
  have hl : (sliceIncl ts a b).length < 2 ^ 63 := lt_of_le_of_lt (sliceIncl_sublist ts a b).length_le hlen
  have := roundtrip_and_length (sliceIncl ts a b) hne (fun t ht => hrange t (sliceIncl_mem ht))
    (strict_nonDecreasing hinc') hl (strict_ends _ hne hinc')
  rwa [sliceIncl_head ts hab hb, sliceIncl_getLast ts hab hb] at this

/-- The times of a piece. -/
structure PieceTimes (ts : List Int) (s : Segment) (a b : Nat) : Prop where
  le : a ≤ b
  lt : b < ts.length
  start : s.startTime = ts[a]'(by omega)
  stop : s.endTime = ts[b]
  bytes : s.timestamps = compressResidualTimestamps (sliceIncl ts a b)

theorem residualsLength_append (l : List Nat) (n : Nat) : residualsLength (l ++ [n]) = n := by
  simp [residualsLength]

/-- The number of residuals of a piece. -/
theorem piece_times (hfit : GoodFit fit ts.length) {s : Segment} {a b : Nat}
    (h : IsPiece log2 fit eb ts vs s a b) : PieceTimes ts s a b := by
  rcases h with ⟨ha, hab, hres, hb, h⟩ | ⟨hab, hb, h⟩
  · obtain ⟨h1, h2, h3, h4⟩ := hfit a ha
    have hle : a ≤ b := by omega
    unfold FittedModel.finish at h
    rw [h1, List.getElem?_eq_getElem ha, List.getElem?_eq_getElem hb] at h
    dsimp only at h
    split at h
    · cases hm : (fit a).modelType with
      | pmcMean => rw [hm] at h; injection h with h; subst h; exact ⟨hle, hb, rfl, rfl, rfl⟩
      | swing => rw [hm] at h; injection h with h; subst h; exact ⟨hle, hb, rfl, rfl, rfl⟩
      | macaqueV => exact absurd hm h4
    · injection h with h; subst h; exact ⟨hle, hb, rfl, rfl, rfl⟩
  · unfold compressResidualsInSeparateSegment at h
    have ha : a < ts.length := by omega
    rw [List.getElem?_eq_getElem ha, List.getElem?_eq_getElem hb] at h
    injection h with h; subst h; exact ⟨hab, hb, rfl, rfl, rfl⟩

/-- The number of residuals of a piece. -/
theorem piece_residuals (hfit : GoodFit fit ts.length) {s : Segment} {a b : Nat}
    (h : IsPiece log2 fit eb ts vs s a b) :
    residualsLength s.residuals ≤ 255 ∧ residualsLength s.residuals < b + 1 - a := by
  rcases h with ⟨ha, hab, hres, hb, h⟩ | ⟨hab, hb, h⟩
  · obtain ⟨h1, h2, h3, h4⟩ := hfit a ha
    unfold FittedModel.finish at h
    rw [h1, List.getElem?_eq_getElem ha, List.getElem?_eq_getElem hb] at h
    dsimp only at h
    split at h
    · rename_i hlt
      have hcount : ((b - ((fit a).endIndex + 1)) % 256 + 1) % 256 = b - (fit a).endIndex := by omega
      cases hm : (fit a).modelType with
      | pmcMean =>
        rw [hm] at h; injection h with h; subst h
        simp only [residualsLength_append, hcount]; omega
      | swing =>
        rw [hm] at h; injection h with h; subst h
        simp only [residualsLength_append, hcount]; omega
      | macaqueV => exact absurd hm h4
    · injection h with h; subst h
      simp only [residualsLength, List.getLast?_nil, Option.getD_none]; omega
  · unfold compressResidualsInSeparateSegment at h
    have ha : a < ts.length := by omega
    rw [List.getElem?_eq_getElem ha, List.getElem?_eq_getElem hb] at h
    injection h with h; subst h
    simp only [residualsLength, List.getLast?_nil, Option.getD_none]; omega

/-- The series as a list of the pieces of a chain. -/
theorem chain_parts (P : Segment → List Int → Prop)
    (hP : ∀ s a b, IsPiece log2 fit eb ts vs s a b → a ≤ b ∧ P s (sliceIncl ts a b))
    {segments : List Segment} {a n : Nat} (h : Chain log2 fit eb ts vs segments a n) (hn : n = ts.length) :
    ∃ parts : List (List Int), parts.flatten = ts.drop a ∧ List.Forall₂ P segments parts := by
  induction h with
  | nil a => subst hn; exact ⟨[], by simp, List.Forall₂.nil⟩
  | cons hp hrest ih =>
    rename_i s rest a b n
    obtain ⟨parts, h1, h2⟩ := ih hn
    obtain ⟨hab, hps⟩ := hP _ _ _ hp
    refine ⟨sliceIncl ts a b :: parts, ?_, List.Forall₂.cons hps h2⟩
    rw [List.flatten_cons, h1]
    unfold sliceIncl
    rw [List.drop_take]
    have : ts.drop (b + 1) = (ts.drop a).drop (b + 1 - a) := by rw [List.drop_drop]; congr 1; omega
    rw [this, List.take_append_drop]

theorem tryCompressWith_chain (hfit : GoodFit fit ts.length) (hne : ts ≠ []) (hlen : ts.length = vs.length) :
    ∃ segments, tryCompressWith log2 fit eb ts vs = .segments segments ∧
      Chain log2 fit eb ts vs segments 0 ts.length := by
  obtain ⟨segments, h1, h2⟩ := loop_chain (log2 := log2) (eb := eb) (vs := vs) hfit hne (ts.length + 1) 0 none
    (by omega) (by omega) trivial (fun _ => rfl)
  refine ⟨segments, ?_, h2⟩
  unfold tryCompressWith
  rw [if_neg (by simp [hlen]), if_neg (by simpa using hne), h1]

end ModelarDB.Lemmas
