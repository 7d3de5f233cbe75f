import Verif.Spec.PythonBound
import Verif.Lemmas.FloatOps
import Mathlib.Tactic.Linarith
import Mathlib.Tactic.NormNum
/-
C68: error bounds declared in Python are those of the table.
-/
namespace ModelarDB.Props
open Model Model.TableDefinition Model.PythonBound Spec.PythonBound Lemmas

/-- **C68**: exactly the error bounds that are documented as valid can be declared. -/
theorem C68_construct (cls : Class) (v : FVal) :
    (construct cls v).isSome ↔ ∃ s q, v = .fin s q ∧ Declared.Valid ⟨cls.isAbsolute, FVal.signed s q⟩ := by
  rcases v with _ | s | ⟨s, q⟩
  · cases h : cls.isAbsolute <;> simp [construct, h, FVal.isFinite, FVal.lt]
  · cases h : cls.isAbsolute <;> cases s <;> simp [construct, h, FVal.isFinite, FVal.lt, FVal.le, FVal.eq]
  have : (∃ s' q', FVal.fin s q = .fin s' q' ∧ Declared.Valid ⟨cls.isAbsolute, FVal.signed s' q'⟩) ↔
      Declared.Valid ⟨cls.isAbsolute, FVal.signed s q⟩ :=
    ⟨by rintro ⟨_, _, h, h'⟩; cases h; exact h', fun h => ⟨s, q, rfl, h⟩⟩
  rw [this]
  have hle : ((FVal.fin s q).le (.fin false 0) = true) ↔ FVal.signed s q ≤ 0 := by rw [le_fin]; simp [FVal.signed]
  have hle' : ((FVal.fin s q).le (.fin false 100) = true) ↔ FVal.signed s q ≤ 100 := by rw [le_fin]; simp [FVal.signed]
  have hlt : ((FVal.fin false 0).lt (.fin s q) = true) ↔ 0 < FVal.signed s q := by simp [FVal.lt, FVal.signed]
  unfold construct Declared.Valid
  cases cls.isAbsolute
  · simp only [Bool.false_eq_true, if_false, true_implies, Bool.and_eq_true, hlt, hle']
    split <;> simp_all
  · simp only [if_true, FVal.isFinite, Bool.not_true, Bool.false_or, hle]
    split
    · simp; linarith
    · simp; linarith

/-- What the C-API makes of a positive value, after it is rounded. -/
theorem toBound_declared (d : Declared) (hv : d.Valid) :
    toBound d.object =
      if 0 < roundMag f32Fmt d.value ∧ roundMag f32Fmt d.value < pow2 128 then
        .ok (if d.absolute then .absolute (.fin false (roundMag f32Fmt d.value)) else .relative (.fin false (roundMag f32Fmt d.value)))
      else .error .panic := by
  obtain ⟨a, q⟩ := d
  obtain ⟨h0, h100⟩ := hv
  simp only at h0 h100
  have hn := roundMag_nonneg (fmt := f32Fmt) h0.le
  have h100' : a = false → roundMag f32Fmt q ≤ 100 := fun h =>
    roundMag_le (by decide) h0.le (h100 h) ⟨100, 0, by decide, by decide, by simp [pow2_zero]⟩
  have hm : f32Fmt.emax = 128 := rfl
  generalize hg : roundMag f32Fmt q = m at hn h100' ⊢
  cases a
  · have hlt : m < pow2 128 := lt_of_le_of_lt (h100' rfl) (by rw [pow2_eq]; norm_num)
    have hr : FVal.round f32Fmt true q = .fin true m := by rw [round_of_lt (by rw [hg, hm]; exact hlt), hg]
    simp only [toBound, encode, Declared.object, Bool.false_eq_true, if_false, reduceCtorEq, FVal.neg, Bool.not_false, FVal.convert, hr, hlt, and_true]
    by_cases hz : 0 < m
    · have h1 : (FVal.fin true m).lt (.fin false 0) = true := by simp [FVal.lt, FVal.signed]; exact hz
      have h2 : (FVal.fin false m).le (.fin false 100) = true := le_fin_pos.2 (h100' rfl)
      have h3 : (FVal.fin false 0).lt (.fin false m) = true := by simp [FVal.lt, FVal.signed]; exact hz
      simp [capiBound, h1, FVal.neg, ErrorBound.tryNewRelative, h2, h3, hz]
    · have hm0 : m = 0 := le_antisymm (not_lt.1 hz) hn
      subst hm0
      simp; decide +kernel
  · by_cases hlt : m < pow2 128
    · have hr : FVal.round f32Fmt false q = .fin false m := by rw [round_of_lt (by rw [hg, hm]; exact hlt), hg]
      simp only [toBound, encode, Declared.object, if_true, FVal.convert, hr, hlt, and_true]
      have h1 : (FVal.fin false m).lt (.fin false 0) = false := by simp [FVal.lt, FVal.signed]; exact hn
      by_cases hz : 0 < m
      · have h2 : (FVal.fin false m).le (.fin false 0) = false := by rw [Bool.eq_false_iff, ne_eq, le_fin_pos]; exact not_le.2 hz
        simp [capiBound, h1, ErrorBound.tryNewAbsolute, FVal.isFinite, h2, hz]
      · have hm0 : m = 0 := le_antisymm (not_lt.1 hz) hn
        subst hm0
        simp; decide +kernel
    · have hr : FVal.round f32Fmt false q = .inf false := by
        unfold FVal.round; simp only [hg, hm]; rw [if_pos (not_lt.1 hlt)]
      simp only [toBound, encode, Declared.object, if_true, FVal.convert, hr, hlt, and_false, if_false]
      decide +kernel

/-- A magnitude is rounded to zero if it is at most half of the smallest float. -/
theorem roundMag_pos_iff {q : ℚ} (hq : 0 < q) : 0 < roundMag f32Fmt q ↔ pow2 (-150) < q := by
  constructor
  · intro h
    by_contra hn
    have := roundMag_mono (fmt := f32Fmt) (by decide) hq.le (not_lt.1 hn)
    have h0 : roundMag f32Fmt (pow2 (-150)) = 0 := by decide +kernel
    rw [h0] at this
    exact absurd h (not_lt.2 this)
  · intro h
    by_cases hl : pow2 (-149) ≤ q
    · exact lt_of_lt_of_le (pow2_pos (-149)) (le_roundMag (by decide) (pow2_pos _).le hl (representable_pow2 (by decide) (by decide)))
    · have he := roundMag_error (fmt := f32Fmt) hq
      have hlp : lastPlace f32Fmt q = -149 := by
        unfold lastPlace
        have : ilog2 q < -149 := pow2_lt_iff.1 (lt_of_le_of_lt (ilog2_spec hq).1 (not_le.1 hl))
        simp only [f32Fmt]; omega
      have h2 : pow2 (-149) / 2 = pow2 (-150) := by
        have : pow2 (-149) = 2 * pow2 (-150) := by have := pow2_succ (-150); norm_num at this; exact this
        rw [this]; ring
      rw [hlp, h2] at he
      have := (abs_le.1 he).1
      linarith

/-- A magnitude is rounded to infinity if it is at least half a last place larger than the largest float. -/
theorem roundMag_lt_iff {q : ℚ} (hq : 0 < q) : roundMag f32Fmt q < pow2 128 ↔ q < pow2 128 - pow2 103 := by
  constructor
  · intro h
    by_contra hn
    have := roundMag_mono (fmt := f32Fmt) (by decide) (by rw [pow2_eq, pow2_eq]; norm_num) (not_lt.1 hn)
    have h0 : roundMag f32Fmt (pow2 128 - pow2 103) = pow2 128 := by decide +kernel
    rw [h0] at this
    exact absurd h (not_lt.2 this)
  · intro h
    have he := roundMag_error (fmt := f32Fmt) hq
    have hil : ilog2 q < 128 := pow2_lt_iff.1 (lt_of_le_of_lt (ilog2_spec hq).1 (lt_trans h (by have := pow2_pos 103; linarith)))
    have hlp : lastPlace f32Fmt q ≤ 104 := by unfold lastPlace; simp only [f32Fmt]; omega
    have h1 := pow2_le hlp
    have h2 : pow2 104 / 2 = pow2 103 := by
      have : pow2 104 = 2 * pow2 103 := by have := pow2_succ 103; norm_num at this; exact this
      rw [this]; ring
    have := (abs_le.1 he).2
    linarith

/-- **C68**: a table with a declared error bound can be created exactly if it is larger than half of the smallest float and, if it is absolute, does not
exceed the largest float by half a last place. Otherwise the process ends. -/
theorem C68_succeeds_iff (d : Declared) (hv : d.Valid) :
    ((∃ e, toBound d.object = .ok e) ↔ pow2 (-150) < d.value ∧ d.value < pow2 128 - pow2 103) ∧
    ((¬ ∃ e, toBound d.object = .ok e) → toBound d.object = .error .panic) := by
  rw [toBound_declared d hv, ← roundMag_pos_iff hv.1, ← roundMag_lt_iff hv.1]
  split
  · rename_i h; simp [h]
  · rename_i h; simp only [h, reduceCtorEq, exists_false, not_false_eq_true, implies_true, and_self]

/-- **C68** (partial): an error bound that is a 32-bit float is used as declared. Missing: other values. -/
theorem C68_exact_partial (d : Declared) (hv : d.Valid) (h32 : Mag32 d.value) : ∃ e, toBound d.object = .ok e ∧ Used d d.value e ∧ Honoured d e := by
  have hr := roundMag_exact h32.rep
  refine ⟨_, by rw [toBound_declared d hv, hr, if_pos ⟨hv.1, h32.lt⟩], rfl, d.value, rfl, hv.1, le_rfl⟩

/-- **C68** (partial): an error bound in the normal range of 32-bit floats is used with its kind and with a value that differs by at most `2 ^ -24` of it.
Missing: it may be larger than declared (`C68_larger`). -/
theorem C68_near_partial (d : Declared) (hv : d.Valid) (h1 : pow2 (-126) ≤ d.value) (h2 : d.value < pow2 128 - pow2 103) :
    ∃ e m, toBound d.object = .ok e ∧ Used d m e ∧ |m - d.value| ≤ d.value * (1 / 2 ^ 24) := by
  have hp : pow2 (-150) < d.value := lt_of_lt_of_le (pow2_lt (by decide)) h1
  refine ⟨_, roundMag f32Fmt d.value, by rw [toBound_declared d hv, if_pos ⟨(roundMag_pos_iff hv.1).2 hp, (roundMag_lt_iff hv.1).2 h2⟩], rfl, ?_⟩
  have hl : -126 < ilog2 d.value + 1 := pow2_lt_iff.1 (lt_of_le_of_lt h1 (ilog2_spec hv.1).2)
  have := roundMag_rel (fmt := f32Fmt) hv.1 (by simp only [f32Fmt]; omega)
  have e : pow2 (-(f32Fmt.prec : Int)) = 1 / 2 ^ 24 := by rw [pow2_eq]; norm_num [f32Fmt]
  rwa [e] at this

/-- **C68**: if all error bounds are 32-bit floats, each column has the error bound declared for it. -/
theorem C68_columns_partial (l : List (String × Declared)) (h : ∀ p ∈ l, p.2.Valid ∧ Mag32 p.2.value) :
    ∃ es, toBounds (l.map fun p => (p.1, p.2.object)) = .ok es ∧ List.Forall₂ (fun p e => p.1 = e.1 ∧ Used p.2 p.2.value e.2) l es := by
  induction l with
  | nil => exact ⟨[], rfl, .nil⟩
  | cons p rest ih =>
    obtain ⟨es, h1, h2⟩ := ih fun p hp => h p (List.mem_cons_of_mem _ hp)
    obtain ⟨e, h3, h4, -⟩ := C68_exact_partial p.2 (h p (List.mem_cons_self ..)).1 (h p (List.mem_cons_self ..)).2
    exact ⟨(p.1, e) :: es, by simp [toBounds, h1, h3], .cons ⟨rfl, h4⟩ h2⟩

/-- The number 0.1 as 64-bit float. -/
def tenth : ℚ := 3602879701896397 / 2 ^ 55

/-- **C68** refuted: the table allows a larger error than 0.1. -/
theorem C68_larger : (construct .absolute (.fin false tenth)).isSome ∧ FVal.convert f64Fmt (.fin false tenth) = .fin false tenth ∧
    ∃ e, toBound ⟨.absolute, .fin false tenth⟩ = .ok e ∧ ¬ Honoured ⟨true, tenth⟩ e := by
  refine ⟨by decide +kernel, by decide +kernel, .absolute (.fin false (13421773 / 2 ^ 27)), by decide +kernel, ?_⟩
  rintro ⟨m, h1, -, h3⟩
  simp only [Used, if_true, ErrorBound.absolute.injEq, FVal.fin.injEq, true_and] at h1
  rw [← h1] at h3
  revert h3
  simp only [tenth]; norm_num

/-- **C68** refuted: valid error bounds that are too small or too large for 32 bits end the process, also relative ones, which are documented for all values up
to 100. -/
theorem C68_panics : ∀ d ∈ [(⟨true, pow2 (-200)⟩ : Declared), ⟨false, pow2 (-200)⟩, ⟨true, pow2 200⟩],
    d.Valid ∧ (construct (if d.absolute then .absolute else .relative) (.fin false d.value)).isSome ∧ toBound d.object = .error .panic := by
  have hp : pow2 (-200) ≤ 100 := le_trans (pow2_le (show (-200 : Int) ≤ 0 by decide)) (by rw [pow2_zero]; norm_num)
  intro d hd
  simp only [List.mem_cons, List.not_mem_nil, or_false] at hd
  rcases hd with rfl | rfl | rfl
  · exact ⟨⟨pow2_pos _, by simp⟩, by decide +kernel, by decide +kernel⟩
  · exact ⟨⟨pow2_pos _, fun _ => hp⟩, by decide +kernel, by decide +kernel⟩
  · exact ⟨⟨pow2_pos _, by simp⟩, by decide +kernel, by decide +kernel⟩

/-- **C68** refuted: an absolute error bound of a class that inherits from `AbsoluteErrorBound` is used as a relative error bound. -/
theorem C68_inherits : construct (.inheritsAbsolute "Meters") (.fin false 5) = some ⟨.inheritsAbsolute "Meters", .fin false 5⟩ ∧
    toBound ⟨.inheritsAbsolute "Meters", .fin false 5⟩ = .ok (.relative (.fin false 5)) := by
  constructor <;> decide +kernel

private theorem capiBound_not_absolute {x : FVal} (hx : x.le (.fin false 0) = true) (v : FVal) : capiBound x ≠ .ok (.absolute v) := by
  unfold capiBound ErrorBound.tryNewAbsolute ErrorBound.tryNewRelative
  rw [hx, Bool.or_true, if_pos rfl]
  split
  · split
    · next hb =>
      split at hb
      · cases hb
      · cases hb; nofun
    · nofun
  · nofun

/-- **C68** refuted for all classes that inherit from `AbsoluteErrorBound`: all values above zero can be constructed, and each is used as the same
value of a relative error bound, so never as an absolute error bound. -/
theorem C68_inherits_all (name : String) {q : ℚ} (hq : 0 < q) :
    construct (.inheritsAbsolute name) (.fin false q) = some ⟨.inheritsAbsolute name, .fin false q⟩ ∧
    toBound ⟨.inheritsAbsolute name, .fin false q⟩ = toBound ⟨.relative, .fin false q⟩ ∧
    ∀ v, toBound ⟨.inheritsAbsolute name, .fin false q⟩ ≠ .ok (.absolute v) := by
  refine ⟨?_, by simp [toBound, encode], fun v h => ?_⟩
  · have h1 : ¬ q < 0 := by linarith
    have h2 : ¬ q = 0 := by linarith
    simp [construct, Class.isAbsolute, FVal.isFinite, FVal.le, FVal.lt, FVal.eq, FVal.signed, h1, h2]
  · have hn := roundMag_nonneg (fmt := f32Fmt) hq.le
    simp only [toBound, encode, reduceCtorEq, if_false, FVal.neg, FVal.convert, FVal.round, Bool.not_false] at h
    split at h
    · exact capiBound_not_absolute (by simp [FVal.le, FVal.lt]) v h
    · exact capiBound_not_absolute (by
        have : -roundMag f32Fmt q < 0 ∨ -roundMag f32Fmt q = 0 := by
          rcases hn.lt_or_eq with hn | hn
          · exact .inl (by linarith)
          · exact .inr (by linarith)
        simpa [FVal.le, FVal.lt, FVal.eq, FVal.signed] using this) v h

/-- **C68** refuted: different error bounds of the same class are equal. -/
theorem C68_equal (cls : Class) (v w : FVal) : equal ⟨cls, v⟩ ⟨cls, w⟩ = true := by simp [equal]

/-! Examples. -/

theorem mag32_half : Mag32 (1 / 2) := ⟨by norm_num, ⟨1, -1, by decide, by decide, by rw [pow2_eq]; norm_num⟩, by rw [pow2_eq]; norm_num [f32Fmt]⟩

example : ∃ e, toBound (Declared.object ⟨true, 1 / 2⟩) = .ok e ∧ Used ⟨true, 1 / 2⟩ (1 / 2) e ∧ Honoured ⟨true, 1 / 2⟩ e :=
  C68_exact_partial ⟨true, 1 / 2⟩ ⟨by norm_num, by simp⟩ mag32_half

example := C68_columns_partial [("wind", ⟨true, 1 / 2⟩), ("power", ⟨false, 1 / 2⟩)]
  (by simp only [List.mem_cons, List.not_mem_nil, or_false]; rintro p (rfl | rfl) <;> exact ⟨⟨by norm_num, fun _ => by norm_num⟩, mag32_half⟩)

example := C68_near_partial ⟨true, tenth⟩ ⟨by norm_num [tenth], by simp⟩ (by rw [pow2_eq]; norm_num [tenth]) (by rw [pow2_eq, pow2_eq]; norm_num [tenth])

example : (construct .relative (.fin false 5)).isSome := (C68_construct _ _).2 ⟨false, 5, rfl, by simp [FVal.signed], fun _ => by norm_num [FVal.signed]⟩

example : ∃ e, toBound (Declared.object ⟨false, 5⟩) = .ok e :=
  (C68_succeeds_iff ⟨false, 5⟩ ⟨by norm_num, fun _ => by norm_num⟩).1.2 ⟨by rw [pow2_eq]; norm_num, by rw [pow2_eq, pow2_eq]; norm_num⟩

end ModelarDB.Props
