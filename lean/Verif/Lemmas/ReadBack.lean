import Verif.Lemmas.Packing
import Verif.Lemmas.Deviation
import Verif.Spec.Faithful
/-
What is read from the segments of a series.
-/
namespace ModelarDB.Lemmas
open Model Spec

section
variable {log2 : Log2} {fit : Nat → FittedModel} {eb : ErrorBound} {ts : List Int} {vs : List Nat}

/-- The values read from a segment of residuals. -/
theorem separate_grid (hrange : ∀ t ∈ ts, IsI64 t) (hinc : StrictlyIncreasing ts) (hsize : ts.length < 2 ^ 63)
    (hlen : ts.length = vs.length) (h32 : ∀ v ∈ vs, v < 2 ^ 32) {a b : Nat} (hab : a ≤ b) (hb : b < ts.length)
    {s : Segment} (h : compressResidualsInSeparateSegment log2 eb a b ts vs = some s) :
    s.modelType = .macaqueV ∧ ∃ v rest, sliceIncl vs a b = v :: rest ∧
      grid s = some (sliceIncl ts a b, v :: storedValues log2 eb v rest) := by
  have ha : a < ts.length := by omega
  have hts := (slice_timestamps hrange hinc hsize hab hb).1
  unfold compressResidualsInSeparateSegment at h
  rw [List.getElem?_eq_getElem ha, List.getElem?_eq_getElem hb] at h
  injection h with h
  subst h
  refine ⟨rfl, ?_⟩
  have hne := sliceIncl_ne_nil vs hab (by omega : b < vs.length)
  obtain ⟨v, rest, hv⟩ := List.exists_cons_of_ne_nil hne
  refine ⟨v, rest, hv, ?_⟩
  have hmem : ∀ x ∈ v :: rest, x < 2 ^ 32 := by
    rw [← hv]; intro x hx; exact h32 x (sliceIncl_mem hx)
  have hl : (sliceIncl ts a b).length = rest.length + 1 := by
    rw [sliceIncl_length ts hb, ← sliceIncl_length vs (a := a) (by omega : b < vs.length), hv]; rfl
  have hrt := segment_roundtrip log2 eb v rest (hmem v (by simp)) (fun x hx => hmem x (by simp [hx]))
  unfold grid Segment.modelValues
  dsimp only
  rw [hts]
  simp only [residualsLength, List.getLast?_nil, Option.getD_none, Nat.not_lt_zero, if_false, Nat.sub_zero,
    List.take_length, List.isEmpty_nil, if_true]
  rw [hv, hl, hrt]

/-- The values read from a segment with a constant or linear model. -/
theorem model_grid (hrange : ∀ t ∈ ts, IsI64 t) (hinc : StrictlyIncreasing ts) (hsize : ts.length < 2 ^ 63)
    (hlen : ts.length = vs.length) (h32 : ∀ v ∈ vs, v < 2 ^ 32) (hfit : GoodFit fit ts.length) {a b : Nat}
    (ha : a < ts.length) (hab : (fit a).endIndex ≤ b) (hres : b - (fit a).endIndex ≤ 255) (hb : b < ts.length)
    {s : Segment} (h : (fit a).finish log2 eb b ts vs = some s)
    (hkept : (fit a).bytesPerValue.le (.fin false 4) = true) {mv : List Nat}
    (hmodel : s.modelValues (sliceIncl ts a (fit a).endIndex) = some mv)
    (hbase : (fit a).modelLastValue < 2 ^ 32)
    (hlast : (fit a).endIndex < b → mv.getLast? = some (fit a).modelLastValue) :
    grid s = some (sliceIncl ts a b,
      mv ++ storedValues log2 eb (fit a).modelLastValue (sliceIncl vs ((fit a).endIndex + 1) b)) := by
  obtain ⟨f1, f2, f3, f4⟩ := hfit a ha
  have hp := piece_times (vs := vs) hfit (IsPiece.model ha hab hres hb h hkept)
  have hts := (slice_timestamps hrange hinc hsize hp.le hb).1
  have hT : decompressAllTimestamps s.startTime s.endTime s.timestamps = some (sliceIncl ts a b) := by
    rw [hp.start, hp.stop, hp.bytes]; exact hts
  have hsl := sliceIncl_length ts (a := a) hb
  have happ := sliceIncl_append ts (a := a) (b := (fit a).endIndex) (c := b) (by omega) hab
  have hsl1 := sliceIncl_length ts (a := a) (b := (fit a).endIndex) (by omega)
  have hsl2 := sliceIncl_length ts (a := (fit a).endIndex + 1) hb
  rcases finish_fields h with ⟨hle, g1, g2, g3, g4, g5⟩ | ⟨hlt, g1, r, hr, g2, g3, g4, g5⟩
  · have hbe : (fit a).endIndex = b := by omega
    unfold grid
    rw [hT, g5]
    simp only [residualsLength, List.getLast?_nil, Option.getD_none, Nat.not_lt_zero, if_false, Nat.sub_zero,
      List.take_length, List.isEmpty_nil, if_true]
    rw [hbe] at hmodel
    rw [hmodel]
    have hnil : sliceIncl vs ((fit a).endIndex + 1) b = [] := by
      unfold sliceIncl
      rw [hbe]
      apply List.drop_eq_nil_of_le
      simp
    rw [hnil]
    simp [storedValues]
  · have hcount : residualsLength s.residuals = b - (fit a).endIndex := by
      rw [g4, residualsLength_append]; omega
    have htake : (sliceIncl ts a b).take ((sliceIncl ts a b).length - (b - (fit a).endIndex)) =
        sliceIncl ts a (fit a).endIndex := by
      rw [hsl, ← happ, List.take_append_of_le_length (by omega), List.take_of_length_le (by omega)]
    have hdrop : ((sliceIncl ts a b).drop ((sliceIncl ts a b).length - (b - (fit a).endIndex))).length =
        b - (fit a).endIndex := by
      rw [List.length_drop, hsl]; omega
    have hslv : (sliceIncl vs ((fit a).endIndex + 1) b).length = b - (fit a).endIndex := by
      rw [sliceIncl_length vs (by omega : b < vs.length)]; omega
    have hrt := residuals_roundtrip log2 eb (sliceIncl vs ((fit a).endIndex + 1) b) (fit a).modelLastValue
      (sliceIncl_ne_nil vs (by omega) (by omega)) hbase (fun v hv => h32 v (sliceIncl_mem hv))
    rw [hslv, ← hr] at hrt
    unfold grid
    rw [hT, hcount]
    dsimp only
    rw [if_neg (by rw [hsl]; omega), htake, hdrop]
    rw [hmodel]
    dsimp only
    have hemp : s.residuals.isEmpty = false := by rw [g4]; simp
    rw [hemp, if_neg (by simp), hlast hlt]
    dsimp only
    rw [g4, List.dropLast_concat, hrt]

/-! ### Composition -/

/-- Reading the segments of a chain. -/
theorem chain_grid (R : Nat → Nat → Prop)
    (hP : ∀ s a b, IsPiece log2 fit eb ts vs s a b → a ≤ b ∧ b < ts.length ∧
      ∃ ws, grid s = some (sliceIncl ts a b, ws) ∧ List.Forall₂ R (sliceIncl vs a b) ws)
    {segments : List Segment} {a n : Nat} (h : Chain log2 fit eb ts vs segments a n) (hn : n = ts.length)
    (hlen : ts.length = vs.length) :
    ∃ ws, gridAll segments = some (ts.drop a, ws) ∧ List.Forall₂ R (vs.drop a) ws := by
  induction h with
  | nil a =>
    subst hn
    refine ⟨[], ?_, ?_⟩
    · simp [gridAll]
    · rw [hlen]; simp
  | cons hp hrest ih =>
    rename_i s rest a b n
    obtain ⟨ws, h1, h2⟩ := ih hn
    obtain ⟨hab, hb, ws', h3, h4⟩ := hP _ _ _ hp
    have hdrop : ∀ {α : Type} (l : List α), sliceIncl l a b ++ l.drop (b + 1) = l.drop a := by
      intro α l
      unfold sliceIncl
      rw [List.drop_take]
      have : l.drop (b + 1) = (l.drop a).drop (b + 1 - a) := by rw [List.drop_drop]; congr 1; omega
      rw [this, List.take_append_drop]
    refine ⟨ws' ++ ws, ?_, ?_⟩
    · unfold gridAll at h1 ⊢
      rw [List.foldr_cons, h1, h3]
      dsimp only
      rw [hdrop]
    · rw [← hdrop vs]
      exact List.rel_append h4 h2

end

/-! ### The models that are fitted by the code -/

theorem zip_drop_take (ts : List Int) (vs : List Nat) {i k : Nat} (hk : 0 < k) :
    ((ts.zip vs).drop i).take k = (sliceIncl ts i (i + k - 1)).zip (sliceIncl vs i (i + k - 1)) := by
  unfold sliceIncl
  have e : i + k - 1 + 1 = i + k := by omega
  rw [e, List.take_drop, List.zip_eq_zipWith, List.zip_eq_zipWith, List.take_zipWith, List.drop_zipWith]

theorem zip_map_snd {ts : List Int} {vs : List Nat} (hlen : ts.length = vs.length) {α : Type} (f : Nat → α) :
    (ts.zip vs).map (fun p => f p.2) = vs.map f := by
  have : (ts.zip vs).map (fun p => f p.2) = ((ts.zip vs).map Prod.snd).map f := by rw [List.map_map]; rfl
  rw [this, List.map_snd_zip (by omega)]

/-- The first value of a linear model is the first value that was offered. -/
theorem swing_firstValue {ops : FloatOps} {eb : ErrorBound} {t0 : Int} {x0 : FVal} (rest : List (Int × FVal)) {s : Swing}
    (h : acceptAll (swingStep ops) (Swing.new eb) ((t0, x0) :: rest) = some s) : s.firstValue = x0 ∧ s.length = rest.length + 1 := by
  have hlen := acceptAll_length (swingStep ops) Swing.length
    (fun s x hx => fitDataPoint_length ops s x.1 x.2 hx) _ _ _ h
  refine ⟨?_, by rw [hlen]; simp [Swing.new]⟩
  clear hlen
  induction rest using List.reverseRecOn generalizing s with
  | nil =>
    simp only [acceptAll, swingStep, List.foldlM_cons, List.foldlM_nil, Swing.fitDataPoint, Swing.new, if_true] at h
    simp at h
    subst h
    rfl
  | append_singleton rest p ih =>
    rw [← List.cons_append] at h
    unfold acceptAll at h ih
    rw [List.foldlM_append] at h
    cases hs : List.foldlM (fun s x => if (swingStep ops s x).2 then some (swingStep ops s x).1 else none) (Swing.new eb)
        ((t0, x0) :: rest) with
    | none => rw [hs] at h; cases h
    | some s' =>
      have h1 := ih hs
      have h2 := acceptAll_length (swingStep ops) Swing.length
        (fun s x hx => fitDataPoint_length ops s x.1 x.2 hx) _ _ _ hs
      rw [hs] at h
      simp only [Option.bind_eq_bind, Option.bind_some, List.foldlM_cons, List.foldlM_nil] at h
      have hlen0 : ¬ s'.length = 0 := by rw [h2]; simp
      split at h
      · injection h with h
        subst h
        unfold swingStep Swing.fitDataPoint
        dsimp only
        rw [if_neg hlen0]
        repeat' split
        all_goals exact h1
      · cases h

theorem swingGrid_congr {t0 t1 : Int} {x y y' : FVal} (h : y' = y ∨ (y' = x ∧ x.eq y = true)) (ts : List Int) :
    swingGrid f64Ops t0 t1 x y' ts = swingGrid f64Ops t0 t1 x y ts := by
  rcases h with rfl | ⟨rfl, h⟩
  · rfl
  · unfold swingGrid computeSlopeAndIntercept
    rw [if_pos (equalOrNan_self y'), if_pos (by simp [equalOrNan, h])]

theorem not_nan_convert {x : FVal} (h : x.isNan = false) : (x.convert f32Fmt).isNan = false := by
  cases x with
  | nan => cases h
  | inf s => rfl
  | fin s q => simp only [FVal.convert, FVal.round]; split <;> rfl

theorem nonneg_add_any {fmt : Fmt} (a b : FVal) : NonnegMag (FVal.add fmt a b) := by
  intro s q h
  cases a with
  | nan => cases h
  | inf u =>
    cases b with
    | nan => cases h
    | inf t => simp only [FVal.add] at h; split at h <;> cases h
    | fin t r => cases h
  | fin u p =>
    cases b with
    | nan => cases h
    | inf t => cases h
    | fin t r => exact nonneg_ofRat s q h

/-- The values of a constant model are repeated. -/
theorem pmc_modelValues {log2 : Log2} {eb : ErrorBound} {ts : List Int} {vs : List Nat} {a b k : Nat} {p : PMCMean}
    {s : Segment} (hk : 0 < k) (hk' : k ≤ ((ts.zip vs).drop a).length) (hpl : p.length = k) (hmF : IsF32 p.model)
    (hnan : (FVal.ofBits32 p.model.toBits32).isNan = false) {m : FittedModel} (hm : m = ModelBuilder.selectPmcMean a p)
    (h : m.finish log2 eb b ts vs = some s) :
    s.modelType = .pmcMean ∧ s.modelValues (sliceIncl ts a (a + k - 1)) = some (pmcMeanGrid p.model.toBits32 k) := by
  have hdec : s.modelType = .pmcMean ∧ decodeValuesForPmcMean s.minValue s.maxValue s.values = some p.model.toBits32 := by
    rw [hm] at h
    rcases finish_fields h with ⟨_, h1, h2, h3, h4, _⟩ | ⟨_, h1, r, _, h2, h3, _, h4⟩
    · rw [h1, h2, h3, h4]
      exact ⟨rfl, rfl⟩
    · rcases h4 with ⟨_, h4⟩ | ⟨h5, _⟩
      · rw [h1, h2, h3, h4]
        exact ⟨rfl, pmc_packing (toBits_lt hmF) hnan _ _⟩
      · cases h5
  refine ⟨hdec.1, ?_⟩
  have hlen : k ≤ ts.length - a := by
    simp only [List.length_drop, List.length_zip] at hk'
    omega
  unfold Segment.modelValues
  rw [hdec.1, hdec.2]
  dsimp only
  rw [sliceIncl_length _ (by omega), show a + k - 1 + 1 - a = k by omega]

/-- Reading back each segment of a series. -/
theorem readback_piece (R : Nat → Nat → Prop) (log2 : Log2) (eb : ErrorBound) (ts : List Int) (vs : List Nat)
    (hnanR : ∀ v w, R v w → (FVal.ofBits32 v).isNan = false → (FVal.ofBits32 w).isNan = false)
    (hrefl : ∀ v, R v v)
    (hstored : ∀ base l, (∀ v ∈ l, v ∈ vs) → List.Forall₂ R l (storedValues log2 eb base l))
    (hpmc : ∀ (l : List Nat) p, (∀ v ∈ l, v ∈ vs) →
      acceptAll PMCMean.fitValue (PMCMean.new eb) (l.map FVal.ofBits32) = some p → ∀ v ∈ l, R v p.model.toBits32)
    (hlen : ts.length = vs.length) (hrange : ∀ t ∈ ts, IsI64 t) (hinc : StrictlyIncreasing ts)
    (hsize : ts.length < 2 ^ 63) (h32 : ∀ v ∈ vs, v < 2 ^ 32)
    (hnonan : ∀ v ∈ vs, (FVal.ofBits32 v).isNan = false)
    (hswing : LinearFaithful R eb ts vs) :
    ∀ s a b, IsPiece log2 (fun i => fitNextModel i eb ts vs) eb ts vs s a b → a ≤ b ∧ b < ts.length ∧
      ∃ ws, grid s = some (sliceIncl ts a b, ws) ∧ List.Forall₂ R (sliceIncl vs a b) ws := by
  have hfit := goodFit_fitNextModel eb ts vs hlen
  · intro s a b hp
    rcases hp with ⟨ha, hab, hres, hb, h, hkept⟩ | ⟨hab, hb, h⟩
    · obtain ⟨f1, f2, f3, f4⟩ := hfit a ha
      dsimp only at f1 f2 f3 f4 hab hres h
      refine ⟨by omega, hb, ?_⟩
      have happ := sliceIncl_append vs (a := a) (b := (fitNextModel a eb ts vs).endIndex) (c := b) (by omega) hab
      have hres' : List.Forall₂ R (sliceIncl vs ((fitNextModel a eb ts vs).endIndex + 1) b)
          (storedValues log2 eb (fitNextModel a eb ts vs).modelLastValue
            (sliceIncl vs ((fitNextModel a eb ts vs).endIndex + 1) b)) :=
        hstored _ _ (fun v hv => sliceIncl_mem hv)
      -- it is enough to know the values of the model
      have finish : ∀ mv, s.modelValues (sliceIncl ts a (fitNextModel a eb ts vs).endIndex) = some mv →
          (fitNextModel a eb ts vs).modelLastValue < 2 ^ 32 →
          mv.getLast? = some (fitNextModel a eb ts vs).modelLastValue →
          List.Forall₂ R (sliceIncl vs a (fitNextModel a eb ts vs).endIndex) mv →
          ∃ ws, grid s = some (sliceIncl ts a b, ws) ∧ List.Forall₂ R (sliceIncl vs a b) ws := by
        intro mv hmv hbase hlast hR
        refine ⟨_, model_grid hrange hinc hsize hlen h32 hfit ha hab hres hb h hkept hmv hbase (fun _ => hlast), ?_⟩
        rw [← happ]
        exact List.rel_append hR hres'
      have hpt := piece_times (vs := vs) hfit (IsPiece.model ha hab hres hb h hkept)
      rcases fitNextModel_result eb ts vs a (by simp [hlen]; omega) with ⟨p, k, hk, hk', hpl, hacc, hm⟩ | ⟨sw, k, hk, hk', hsl, hacc, hm⟩
      · -- a constant model
        have hend : (fitNextModel a eb ts vs).endIndex = a + k - 1 := by rw [hm]; simp [ModelBuilder.selectPmcMean, hpl]
        have hlast : (fitNextModel a eb ts vs).modelLastValue = p.model.toBits32 := by rw [hm]; rfl
        have hslen : (sliceIncl ts a (a + k - 1)).length = (sliceIncl vs a (a + k - 1)).length := by
          rw [sliceIncl_length _ (by omega), sliceIncl_length _ (by omega)]
        rw [zip_drop_take ts vs hk, zip_map_snd hslen] at hacc
        have hvs : ∀ v ∈ (sliceIncl vs a (a + k - 1)).map FVal.ofBits32, IsF32 v := by
          intro v hv; obtain ⟨x, _, rfl⟩ := List.mem_map.mp hv; exact isF32_ofBits x
        have hmF := pmc_model_isF32 eb _ hvs p hacc
        have hRv := hpmc _ p (fun v hv => sliceIncl_mem hv) hacc
        have hnan : (FVal.ofBits32 p.model.toBits32).isNan = false := by
          obtain ⟨v, rest, hv⟩ := List.exists_cons_of_ne_nil (sliceIncl_ne_nil vs (a := a) (b := a + k - 1) (by omega) (by omega))
          have hvm : v ∈ sliceIncl vs a (a + k - 1) := by rw [hv]; simp
          exact hnanR v _ (hRv v hvm) (hnonan v (sliceIncl_mem hvm))
        have hmv := (pmc_modelValues hk hk' hpl hmF hnan hm h).2
        rw [← hend] at hmv
        refine finish _ hmv (by rw [hlast]; exact toBits_lt hmF) ?_ ?_
        · rw [hlast, pmcMeanGrid, List.getLast?_replicate, if_neg (by omega)]
        · rw [hend, List.forall₂_iff_get]
          refine ⟨by rw [pmcMeanGrid, List.length_replicate, sliceIncl_length _ (by omega)]; omega, ?_⟩
          intro i h1 h2
          rw [List.eq_of_mem_replicate (List.get_mem (pmcMeanGrid p.model.toBits32 k) ⟨i, h2⟩)]
          exact hRv _ (List.get_mem _ _)
      · -- a linear model
        have hend : (fitNextModel a eb ts vs).endIndex = a + sw.length - 1 := by rw [hm]; rfl
        have hlast : (fitNextModel a eb ts vs).modelLastValue = (sw.model f64Ops).2.toBits32 := by rw [hm]; rfl
        have hel : a + sw.length - 1 < ts.length := by omega
        rw [zip_drop_take ts vs hk] at hacc
        obtain ⟨hR, hgl⟩ := hswing a ha sw hm hkept (by rw [hsl]; exact hacc) ts[a] ts[a + sw.length - 1] (List.getElem?_eq_getElem ha)
          (List.getElem?_eq_getElem hel)
        rw [← hsl] at hacc hk
        have hne1 := sliceIncl_ne_nil ts (a := a) (b := a + sw.length - 1) (by omega) hel
        have hne2 := sliceIncl_ne_nil vs (a := a) (b := a + sw.length - 1) (by omega) (by omega)
        obtain ⟨t0, trest, ht0⟩ := List.exists_cons_of_ne_nil hne1
        obtain ⟨v0, vrest, hv0⟩ := List.exists_cons_of_ne_nil hne2
        have hv0m : v0 ∈ vs := by
          have : v0 ∈ sliceIncl vs a (a + sw.length - 1) := by rw [hv0]; simp
          exact sliceIncl_mem this
        rw [ht0, hv0] at hacc
        have hfv : sw.firstValue = FVal.ofBits32 v0 :=
          (swing_firstValue (t0 := t0) (x0 := FVal.ofBits32 v0) ((trest.zip vrest).map fun p => (p.1, FVal.ofBits32 p.2))
            (by rw [← hacc]; rfl)).1
        -- the stored parameters
        have n1 : (sw.model f64Ops).1.isNan = false := by
          unfold Swing.model
          dsimp only [f64Ops]
          rw [hfv]
          exact not_nan_convert (hnonan v0 hv0m)
        have i1 : IsF32 (sw.model f64Ops).1 := by
          unfold Swing.model
          dsimp only [f64Ops]
          refine isF32_convert _ (fun s q hq => ?_)
          rw [hfv] at hq
          exact (mag32_ofBits _ hq).nonneg
        have i2 : IsF32 (sw.model f64Ops).2 := by
          unfold Swing.model
          dsimp only [f64Ops]
          refine isF32_convert _ (fun s q hq => ?_)
          exact nonneg_add_any (fmt := f64Fmt) _ _ s q hq
        have n2 : (sw.model f64Ops).2.isNan = false := by
          have hlm := List.mem_of_getLast? hgl
          obtain ⟨i, hi, hie⟩ := List.getElem_of_mem hlm
          rw [List.forall₂_iff_get] at hR
          have := hR.2 i (by rw [hR.1]; exact hi) hi
          simp only [List.get_eq_getElem] at this
          rw [hie] at this
          have := hnanR _ _ this (hnonan _ (sliceIncl_mem (List.getElem_mem _)))
          rwa [ofBits_toBits i2] at this
        have hdec : s.modelType = .swing ∧ ∃ last, decodeValuesForSwing s.minValue s.maxValue s.values =
            some ((sw.model f64Ops).1.toBits32, last) ∧
            (last = (sw.model f64Ops).2.toBits32 ∨
              (last = (sw.model f64Ops).1.toBits32 ∧ (sw.model f64Ops).1.eq (sw.model f64Ops).2 = true)) := by
          rw [hm] at h
          exact swing_recovered i1 i2 n1 n2 h
        obtain ⟨hty, last, hd1, hd2⟩ := hdec
        have hmv : s.modelValues (sliceIncl ts a (fitNextModel a eb ts vs).endIndex) =
            some ((swingGrid f64Ops ts[a] ts[a + sw.length - 1] (sw.model f64Ops).1 (sw.model f64Ops).2
              (sliceIncl ts a (a + sw.length - 1))).map FVal.toBits32) := by
          unfold Segment.modelValues
          rw [hty, hd1, hend, List.getLast?_eq_some_getLast hne1, sliceIncl_getLast ts (by omega) hel, hpt.start]
          dsimp only
          rw [ofBits_toBits i1]
          rw [swingGrid_congr (y := (sw.model f64Ops).2) (y' := FVal.ofBits32 last)]
          rcases hd2 with rfl | ⟨rfl, hd3⟩
          · left; exact ofBits_toBits i2
          · right; exact ⟨ofBits_toBits i1, hd3⟩
        refine finish _ hmv (by rw [hlast]; exact toBits_lt i2) ?_ ?_
        · rw [hlast]; exact hgl
        · rw [hend]; exact hR
    · obtain ⟨_, v, rest, hv, hg⟩ := separate_grid hrange hinc hsize hlen h32 hab hb h
      refine ⟨hab, hb, _, hg, ?_⟩
      rw [hv]
      refine List.Forall₂.cons (hrefl v) (hstored _ _ (fun x hx => ?_))
      have : x ∈ sliceIncl vs a b := by rw [hv]; simp [hx]
      exact sliceIncl_mem this

/-- Reading back all segments of a series. -/
theorem readback (R : Nat → Nat → Prop) (log2 : Log2) (eb : ErrorBound) (ts : List Int) (vs : List Nat)
    (hrefl : ∀ v, R v v)
    (hnanR : ∀ v w, R v w → (FVal.ofBits32 v).isNan = false → (FVal.ofBits32 w).isNan = false)
    (hstored : ∀ base l, (∀ v ∈ l, v ∈ vs) → List.Forall₂ R l (storedValues log2 eb base l))
    (hpmc : ∀ (l : List Nat) p, (∀ v ∈ l, v ∈ vs) →
      acceptAll PMCMean.fitValue (PMCMean.new eb) (l.map FVal.ofBits32) = some p → ∀ v ∈ l, R v p.model.toBits32)
    (hlen : ts.length = vs.length) (hne : ts ≠ []) (hrange : ∀ t ∈ ts, IsI64 t) (hinc : StrictlyIncreasing ts)
    (hsize : ts.length < 2 ^ 63) (h32 : ∀ v ∈ vs, v < 2 ^ 32)
    (hnonan : ∀ v ∈ vs, (FVal.ofBits32 v).isNan = false)
    (hswing : LinearFaithful R eb ts vs) :
    ∃ segments ws, tryCompressUnivariate log2 eb ts vs = .segments segments ∧
      gridAll segments = some (ts, ws) ∧ List.Forall₂ R vs ws := by
  have hfit := goodFit_fitNextModel eb ts vs hlen
  obtain ⟨segments, hseg, hchain⟩ := tryCompressWith_chain (log2 := log2) (eb := eb) hfit hne hlen
  obtain ⟨ws, h1, h2⟩ := chain_grid R (readback_piece R log2 eb ts vs hnanR hrefl hstored hpmc hlen hrange hinc hsize h32 hnonan
    hswing) hchain rfl hlen
  exact ⟨segments, ws, hseg, by simpa using h1, by simpa using h2⟩

end ModelarDB.Lemmas
