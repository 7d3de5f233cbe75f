import Verif.Lemmas.ReadBack
import Verif.Spec.Extrema
/-
The minimum and maximum kept by the XOR codec, for C13.
-/
namespace ModelarDB.Lemmas
open Model Spec

theorem lt_of_nan_left {x y : FVal} (h : x.isNan = true) : x.lt y = false := by cases x <;> first | rfl | cases h
theorem lt_of_nan_right {x y : FVal} (h : y.isNan = true) : x.lt y = false := by
  cases y <;> first | (cases x <;> rfl) | cases h

theorem not_lt_trans {x y z : FVal} (hy : y.isNan = false) (h1 : x.lt y = false) (h2 : y.lt z = false) : x.lt z = false := by
  cases x <;> cases y <;> cases z <;> simp_all [FVal.lt, FVal.isNan]
  linarith

theorem flt_asymm {x y : FVal} (h : x.lt y = true) : y.lt x = false := by
  cases x <;> cases y <;> simp_all [FVal.lt]
  linarith

theorem flt_irrefl (x : FVal) : x.lt x = false := by cases x <;> simp [FVal.lt]

theorem encodeXor_errorBound (m : MacaqueV) (v : Nat) : (m.encodeXor v).errorBound = m.errorBound := by
  unfold MacaqueV.encodeXor
  dsimp only
  repeat' split
  all_goals rfl

theorem compressValues_cons (log2 : Log2) (eb : ErrorBound) (v : Nat) (vs : List Nat) :
    (MacaqueV.new eb).compressValues log2 (v :: vs) =
      ({ MacaqueV.new eb with compressedValues := BitVecBuilder.new.appendBits v 32 }.updateMinMaxAndLastValue v).compressValues
        log2 vs := by
  simp only [MacaqueV.compressValues, List.foldl_cons]
  rfl

/-- minimum of two parts. -/
theorem isMinimum_append {m n : Nat} {a b : List Nat} (ha : IsMinimum m a) (hb : IsMinimum n b) :
    IsMinimum (min32 m n) (a ++ b) := by
  unfold min32
  rcases ha with ⟨h1, h2⟩ | ⟨h1, h2, h3⟩ <;> rcases hb with ⟨k1, k2⟩ | ⟨k1, k2, k3⟩
  · left
    rw [if_pos h2]
    refine ⟨fun w hw => ?_, k2⟩
    rcases List.mem_append.mp hw with h | h
    · exact h1 w h
    · exact k1 w h
  · right
    rw [if_pos h2]
    refine ⟨by simp [k1], k2, fun w hw => ?_⟩
    rcases List.mem_append.mp hw with h | h
    · exact lt_of_nan_left (h1 w h)
    · exact k3 w h
  · right
    rw [if_neg (by simp [h2]), if_pos k2]
    refine ⟨by simp [h1], h2, fun w hw => ?_⟩
    rcases List.mem_append.mp hw with h | h
    · exact h3 w h
    · exact lt_of_nan_left (k1 w h)
  · right
    rw [if_neg (by simp [h2]), if_neg (by simp [k2])]
    split
    · rename_i hlt
      refine ⟨by simp [k1], k2, fun w hw => ?_⟩
      rcases List.mem_append.mp hw with h | h
      · exact not_lt_trans h2 (h3 w h) (flt_asymm hlt)
      · exact k3 w h
    · rename_i hlt
      refine ⟨by simp [h1], h2, fun w hw => ?_⟩
      rcases List.mem_append.mp hw with h | h
      · exact h3 w h
      · exact not_lt_trans k2 (k3 w h) (by simpa using hlt)

theorem isMinimum_nil : IsMinimum nanBits32 [] := Or.inl ⟨by simp, by decide +kernel⟩

theorem isMinimum_replicate {v k : Nat} (hk : 0 < k) : IsMinimum v (List.replicate k v) := by
  by_cases h : (FVal.ofBits32 v).isNan = true
  · exact Or.inl ⟨fun w hw => by rw [List.eq_of_mem_replicate hw]; exact h, h⟩
  · exact Or.inr ⟨List.mem_replicate.mpr ⟨by omega, rfl⟩, by simpa using h,
      fun w hw => by rw [List.eq_of_mem_replicate hw]; exact flt_irrefl _⟩

theorem isMinimum_singleton (v : Nat) : IsMinimum v [v] := isMinimum_replicate (k := 1) (by decide)

theorem encodeXor_minValue (m : MacaqueV) (v : Nat) : (m.encodeXor v).minValue = m.minValue := by
  unfold MacaqueV.encodeXor
  dsimp only
  repeat' split
  all_goals rfl

/-- The minimum kept by the XOR codec is that of the values it stores. -/
theorem foldl_isMinimum (log2 : Log2) (vs acc : List Nat) (m : MacaqueV) (h : IsMinimum m.minValue acc) :
    IsMinimum (vs.foldl (MacaqueV.compressValueXorLastValue log2) m).minValue
      (acc ++ storedValues log2 m.errorBound m.lastValue vs) := by
  induction vs generalizing acc m with
  | nil => simpa [storedValues] using h
  | cons v vs ih =>
    rw [List.foldl_cons, storedValues, List.append_cons]
    have he := encodeXor_errorBound m (storedValue log2 m.errorBound m.lastValue v)
    have := ih (acc ++ [storedValue log2 m.errorBound m.lastValue v]) (m.compressValueXorLastValue log2 v) (by
      show IsMinimum (min32 (m.encodeXor _).minValue _) _
      rw [encodeXor_minValue]
      exact isMinimum_append h (isMinimum_singleton _))
    have he' : (m.compressValueXorLastValue log2 v).errorBound = m.errorBound := he
    rw [he'] at this
    exact this

theorem withoutFirst_isMinimum (log2 : Log2) (eb : ErrorBound) (vs : List Nat) (last : Nat) :
    IsMinimum ((MacaqueV.new eb).compressValuesWithoutFirst log2 vs last).minValue (storedValues log2 eb last vs) := by
  have := foldl_isMinimum log2 vs [] { MacaqueV.new eb with lastValue := last } isMinimum_nil
  exact this

theorem values_isMinimum (log2 : Log2) (eb : ErrorBound) (v : Nat) (vs : List Nat) :
    IsMinimum ((MacaqueV.new eb).compressValues log2 (v :: vs)).minValue (v :: storedValues log2 eb v vs) := by
  rw [compressValues_cons, compressValues_foldl]
  · have := foldl_isMinimum log2 vs [v]
      ({ MacaqueV.new eb with compressedValues := BitVecBuilder.new.appendBits v 32 }.updateMinMaxAndLastValue v) (by
        have := isMinimum_append isMinimum_nil (isMinimum_singleton v)
        simpa [MacaqueV.updateMinMaxAndLastValue, MacaqueV.new] using this)
    exact this
  · exact appendBits_wf bwf_new v 32
  · exact appendBits32_notEmpty v

/-- maximum of two parts. -/
theorem isMaximum_append {m n : Nat} {a b : List Nat} (ha : IsMaximum m a) (hb : IsMaximum n b) :
    IsMaximum (max32 m n) (a ++ b) := by
  unfold max32
  rcases ha with ⟨h1, h2⟩ | ⟨h1, h2, h3⟩ <;> rcases hb with ⟨k1, k2⟩ | ⟨k1, k2, k3⟩
  · left
    rw [if_pos h2]
    refine ⟨fun w hw => ?_, k2⟩
    rcases List.mem_append.mp hw with h | h
    · exact h1 w h
    · exact k1 w h
  · right
    rw [if_pos h2]
    refine ⟨by simp [k1], k2, fun w hw => ?_⟩
    rcases List.mem_append.mp hw with h | h
    · exact lt_of_nan_right (h1 w h)
    · exact k3 w h
  · right
    rw [if_neg (by simp [h2]), if_pos k2]
    refine ⟨by simp [h1], h2, fun w hw => ?_⟩
    rcases List.mem_append.mp hw with h | h
    · exact h3 w h
    · exact lt_of_nan_right (k1 w h)
  · right
    rw [if_neg (by simp [h2]), if_neg (by simp [k2])]
    split
    · rename_i hlt
      refine ⟨by simp [k1], k2, fun w hw => ?_⟩
      rcases List.mem_append.mp hw with h | h
      · exact not_lt_trans h2 (flt_asymm hlt) (h3 w h)
      · exact k3 w h
    · rename_i hlt
      refine ⟨by simp [h1], h2, fun w hw => ?_⟩
      rcases List.mem_append.mp hw with h | h
      · exact h3 w h
      · exact not_lt_trans k2 (by simpa using hlt) (k3 w h)

theorem isMaximum_nil : IsMaximum nanBits32 [] := Or.inl ⟨by simp, by decide +kernel⟩

theorem isMaximum_replicate {v k : Nat} (hk : 0 < k) : IsMaximum v (List.replicate k v) := by
  by_cases h : (FVal.ofBits32 v).isNan = true
  · exact Or.inl ⟨fun w hw => by rw [List.eq_of_mem_replicate hw]; exact h, h⟩
  · exact Or.inr ⟨List.mem_replicate.mpr ⟨by omega, rfl⟩, by simpa using h,
      fun w hw => by rw [List.eq_of_mem_replicate hw]; exact flt_irrefl _⟩

theorem isMaximum_singleton (v : Nat) : IsMaximum v [v] := isMaximum_replicate (k := 1) (by decide)

theorem encodeXor_maxValue (m : MacaqueV) (v : Nat) : (m.encodeXor v).maxValue = m.maxValue := by
  unfold MacaqueV.encodeXor
  dsimp only
  repeat' split
  all_goals rfl

/-- The maximum kept by the XOR codec is that of the values it stores. -/
theorem foldl_isMaximum (log2 : Log2) (vs acc : List Nat) (m : MacaqueV) (h : IsMaximum m.maxValue acc) :
    IsMaximum (vs.foldl (MacaqueV.compressValueXorLastValue log2) m).maxValue
      (acc ++ storedValues log2 m.errorBound m.lastValue vs) := by
  induction vs generalizing acc m with
  | nil => simpa [storedValues] using h
  | cons v vs ih =>
    rw [List.foldl_cons, storedValues, List.append_cons]
    have he := encodeXor_errorBound m (storedValue log2 m.errorBound m.lastValue v)
    have := ih (acc ++ [storedValue log2 m.errorBound m.lastValue v]) (m.compressValueXorLastValue log2 v) (by
      show IsMaximum (max32 (m.encodeXor _).maxValue _) _
      rw [encodeXor_maxValue]
      exact isMaximum_append h (isMaximum_singleton _))
    have he' : (m.compressValueXorLastValue log2 v).errorBound = m.errorBound := he
    rw [he'] at this
    exact this

theorem withoutFirst_isMaximum (log2 : Log2) (eb : ErrorBound) (vs : List Nat) (last : Nat) :
    IsMaximum ((MacaqueV.new eb).compressValuesWithoutFirst log2 vs last).maxValue (storedValues log2 eb last vs) := by
  have := foldl_isMaximum log2 vs [] { MacaqueV.new eb with lastValue := last } isMaximum_nil
  exact this

theorem values_isMaximum (log2 : Log2) (eb : ErrorBound) (v : Nat) (vs : List Nat) :
    IsMaximum ((MacaqueV.new eb).compressValues log2 (v :: vs)).maxValue (v :: storedValues log2 eb v vs) := by
  rw [compressValues_cons, compressValues_foldl]
  · have := foldl_isMaximum log2 vs [v]
      ({ MacaqueV.new eb with compressedValues := BitVecBuilder.new.appendBits v 32 }.updateMinMaxAndLastValue v) (by
        have := isMaximum_append isMaximum_nil (isMaximum_singleton v)
        simpa [MacaqueV.updateMinMaxAndLastValue, MacaqueV.new] using this)
    exact this
  · exact appendBits_wf bwf_new v 32
  · exact appendBits32_notEmpty v


theorem chain_mem {log2 : Log2} {fit : Nat → FittedModel} {eb : ErrorBound} {ts : List Int} {vs : List Nat}
    {l : List Segment} {a n : Nat} (h : Chain log2 fit eb ts vs l a n) {s : Segment} (hs : s ∈ l) :
    ∃ a b, IsPiece log2 fit eb ts vs s a b := by
  induction h with
  | nil => cases hs
  | cons hp _ ih =>
    rcases List.mem_cons.mp hs with rfl | hs
    · exact ⟨_, _, hp⟩
    · exact ih hs

end ModelarDB.Lemmas
