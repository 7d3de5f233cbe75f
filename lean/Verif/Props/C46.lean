import Verif.Lemmas.Embedded
import Mathlib.Tactic.Tauto
import Mathlib.Tactic.NormNum
/-
C46: copying a time range copies exactly that range for all fields. C59: data in a table is within its error bounds after moving and copying.
-/
namespace ModelarDB.Props
open Model Model.Embedded Spec Spec.Embedded Lemmas.Embedded

variable {κ δ : Type} [DecidableEq κ] [DecidableEq δ]

theorem sublist_flatMap {α β : Type} (f : α → List β) {l₁ l₂ : List α} (h : l₁.Sublist l₂) : (l₁.flatMap f).Sublist (l₂.flatMap f) := by
  induction h with
  | slnil => exact List.Sublist.refl _
  | cons a _ ih => rw [List.flatMap_cons]; exact ih.trans (List.sublist_append_right _ _)
  | cons_cons a _ ih => rw [List.flatMap_cons, List.flatMap_cons]; exact (List.Sublist.refl _).append ih

/-- The segments that are copied. -/
theorem copy_items {σ : Type} {interval : σ → Int × Int} {st st' : State κ δ σ} {source target : κ} {startTime endTime : Option Int} {writeFails : Bool}
    (h : copyTimeSeriesTable interval st source target startTime endTime writeFails = (st', none)) :
    ∃ s t copied, st source = some s ∧ st target = some t ∧ s.kind = .timeSeries ∧ t.kind = .timeSeries ∧
      schemasAreCompatible s.schema t.schema = true ∧ st' target = some { t with items := t.items ++ copied } ∧
      (∀ k, k ≠ target → st' k = st k) ∧ copied.Sublist s.items ∧
      ∀ i, i ∈ copied ↔ i ∈ s.items ∧ (∀ x, startTime = some x → x ≤ (interval i).1) ∧ (∀ x, endTime = some x → (interval i).2 ≤ x) := by
  unfold copyTimeSeriesTable at h
  split at h
  · rename_i s t hs ht
    split at h
    · rename_i hk
      split at h
      · cases h
      · rename_i hc
        dsimp only at h
        split at h
        · cases h
        · injection h with h1 _
          subst h1
          refine ⟨s, t, s.items.filter fun i => inWhere startTime endTime (interval i), hs, ht, hk.1, hk.2, by simpa using hc, ?_, ?_, List.filter_sublist, ?_⟩
          · unfold State.append
            rw [ht]
            simp only [State.set, if_true]
          · intro k hkt
            unfold State.append
            rw [ht]
            simp [State.set, hkt]
          · intro i
            rw [List.mem_filter]
            cases startTime <;> cases endTime <;> simp [inWhere]
    · cases h
  · cases h

/-- **C46** (partial): copying a time range only copies data points in the range, each as often as it is in the table. If no segment is partly in
the range, it copies exactly the data points in the range, for every field. Missing: segments that are partly in the range, none of whose data
points are copied, see `C46_boundary`. -/
theorem C46_partial (interval : Points → Int × Int) (st st' : State κ δ Points) (source target : κ) (startTime endTime : Option Int)
    (writeFails : Bool) (s : Table δ Points) (hs : st source = some s) (hspan : ∀ p ∈ s.items, Spans interval p)
    (h : copyTimeSeriesTable interval st source target startTime endTime writeFails = (st', none)) :
    ∃ t copied, st target = some t ∧ st' target = some { t with items := t.items ++ copied } ∧ (∀ k, k ≠ target → st' k = st k) ∧
      (∀ field, (timestampsOf copied field).Sublist (timestampsOf s.items field)) ∧
      (∀ field, ∀ x ∈ timestampsOf copied field, InRange startTime endTime x) ∧
      ((∀ p ∈ s.items, (∀ x ∈ p.points.map Prod.fst, InRange startTime endTime x) ∨ (∀ x ∈ p.points.map Prod.fst, ¬ InRange startTime endTime x)) →
        ∀ field x, x ∈ timestampsOf copied field ↔ x ∈ timestampsOf s.items field ∧ InRange startTime endTime x) := by
  obtain ⟨s', t, copied, hs', ht, _, _, _, h1, h2, h3, h4⟩ := copy_items h
  rw [hs] at hs'
  injection hs' with hs'
  subst hs'
  have hmem : ∀ (items : List Points) field x, x ∈ timestampsOf items field ↔ ∃ p ∈ items, p.field = field ∧ x ∈ p.points.map Prod.fst := by
    intro items field x
    unfold timestampsOf
    rw [List.mem_flatMap]
    constructor
    · rintro ⟨p, hp, hx⟩
      rw [List.mem_filter, decide_eq_true_eq] at hp
      exact ⟨p, hp.1, hp.2, hx⟩
    · rintro ⟨p, hp, hf, hx⟩
      exact ⟨p, by rw [List.mem_filter, decide_eq_true_eq]; exact ⟨hp, hf⟩, hx⟩
  have hrange : ∀ p ∈ copied, ∀ x ∈ p.points.map Prod.fst, InRange startTime endTime x := by
    intro p hp x hx
    obtain ⟨hps, ha, hb⟩ := (h4 p).mp hp
    obtain ⟨_, _, hsp⟩ := hspan p hps
    exact ⟨fun y hy => le_trans (ha y hy) (hsp x hx).1, fun y hy => le_trans (hsp x hx).2 (hb y hy)⟩
  refine ⟨t, copied, ht, h1, h2, ?_, ?_, ?_⟩
  · intro field
    unfold timestampsOf
    exact sublist_flatMap _ (List.Sublist.filter _ h3)
  · intro field x hx
    obtain ⟨p, hp, _, hx⟩ := (hmem _ _ _).mp hx
    exact hrange p hp x hx
  · intro hall field x
    rw [hmem, hmem]
    constructor
    · rintro ⟨p, hp, hf, hx⟩
      exact ⟨⟨p, h3.mem hp, hf, hx⟩, hrange p hp x hx⟩
    · rintro ⟨⟨p, hp, hf, hx⟩, hin⟩
      refine ⟨p, (h4 p).mpr ⟨hp, ?_, ?_⟩, hf, hx⟩
      · rcases hall p hp with ha | ha
        · exact (ha _ (hspan p hp).1).1
        · exact absurd hin (ha x hx)
      · rcases hall p hp with ha | ha
        · exact (ha _ (hspan p hp).2.1).2
        · exact absurd hin (ha x hx)

theorem filter_flatMap_sublist {α β : Type} (c : α → Bool) (ts : α → List β) (r : β → Bool) : ∀ (items : List α),
    (∀ p ∈ items, c p = true → ∀ x ∈ ts p, r x = true) → ((items.filter c).flatMap ts).Sublist ((items.flatMap ts).filter r)
  | [], _ => by simp
  | p :: items, hc => by
    have ih := filter_flatMap_sublist c ts r items fun q hq => hc q (List.mem_cons_of_mem _ hq)
    rw [List.flatMap_cons, List.filter_append, List.filter_cons]
    split
    · rename_i hp
      rw [List.flatMap_cons, List.filter_eq_self.mpr (hc p List.mem_cons_self hp)]
      exact (List.Sublist.refl _).append ih
    · exact ih.trans (List.sublist_append_right _ _)

theorem filter_flatMap_iff {α β : Type} (c : α → Bool) (ts : α → List β) (r : β → Bool) : ∀ (items : List α),
    (∀ p ∈ items, c p = true → ∀ x ∈ ts p, r x = true) →
    ((items.filter c).flatMap ts = (items.flatMap ts).filter r ↔ ∀ p ∈ items, c p = false → ∀ x ∈ ts p, r x = false)
  | [], _ => by simp
  | p :: items, hc => by
    have hc' := fun q hq => hc q (List.mem_cons_of_mem _ hq)
    have ih := filter_flatMap_iff c ts r items hc'
    rw [List.flatMap_cons, List.filter_append, List.filter_cons]
    split
    · rename_i hp
      rw [List.flatMap_cons, List.filter_eq_self.mpr (hc p List.mem_cons_self hp), List.append_cancel_left_eq, ih]
      simp [hp]
    · rename_i hp
      rw [Bool.not_eq_true] at hp
      constructor
      · intro h
        have hlen := (filter_flatMap_sublist c ts r items hc').length_le
        have heq := congrArg List.length h
        rw [List.length_append] at heq
        have hnil : (ts p).filter r = [] := List.length_eq_zero_iff.mp (by omega)
        rw [hnil, List.nil_append, ih] at h
        intro q hq
        rcases List.mem_cons.mp hq with rfl | hq
        · intro _ x hx
          have := List.filter_eq_nil_iff.mp hnil x hx
          simpa using this
        · exact h q hq
      · intro h
        have hnil : (ts p).filter r = [] := by
          rw [List.filter_eq_nil_iff]
          intro x hx
          rw [h p List.mem_cons_self hp x hx]
          simp
        rw [hnil, List.nil_append, ih]
        exact fun q hq => h q (List.mem_cons_of_mem _ hq)

/-- Copying a time range copies exactly the data points of a field in the range if and only if no segment of the field is partly in the range. -/
theorem C46_iff (interval : Points → Int × Int) (st st' : State κ δ Points) (source target : κ) (startTime endTime : Option Int)
    (writeFails : Bool) (s : Table δ Points) (hs : st source = some s) (hspan : ∀ p ∈ s.items, Spans interval p)
    (keep : Int → Bool) (hkeep : ∀ x, keep x = true ↔ InRange startTime endTime x)
    (h : copyTimeSeriesTable interval st source target startTime endTime writeFails = (st', none)) :
    ∃ t copied, st target = some t ∧ st' target = some { t with items := t.items ++ copied } ∧ ∀ field,
      (timestampsOf copied field = (timestampsOf s.items field).filter keep ↔
        ∀ p ∈ s.items, p.field = field → (∃ x ∈ p.points.map Prod.fst, InRange startTime endTime x) →
          ∀ x ∈ p.points.map Prod.fst, InRange startTime endTime x) := by
  have hwhere : ∀ p, inWhere startTime endTime (interval p) = true ↔
      (∀ x, startTime = some x → x ≤ (interval p).1) ∧ (∀ x, endTime = some x → (interval p).2 ≤ x) := by
    intro p
    cases startTime <;> cases endTime <;> simp [inWhere]
  have hall : ∀ p ∈ s.items, (inWhere startTime endTime (interval p) = true ↔ ∀ x ∈ p.points.map Prod.fst, InRange startTime endTime x) := by
    intro p hp
    obtain ⟨h1, h2, h3⟩ := hspan p hp
    rw [hwhere]
    constructor
    · rintro ⟨ha, hb⟩ x hx
      exact ⟨fun y hy => le_trans (ha y hy) (h3 x hx).1, fun y hy => le_trans (h3 x hx).2 (hb y hy)⟩
    · intro hx
      exact ⟨(hx _ h1).1, (hx _ h2).2⟩
  unfold copyTimeSeriesTable at h
  rw [hs] at h
  split at h
  · rename_i s' t hs' ht
    injection hs' with hs'
    subst hs'
    split at h
    · split at h
      · cases h
      · dsimp only at h
        split at h
        · cases h
        · injection h with h1 _
          subst h1
          refine ⟨t, s.items.filter fun i => inWhere startTime endTime (interval i), ht, ?_, fun field => ?_⟩
          · unfold State.append
            rw [ht]
            simp only [State.set, if_true]
          · unfold timestampsOf
            rw [List.filter_filter, show (fun a : Points => decide (a.field = field) && inWhere startTime endTime (interval a)) =
              fun a => inWhere startTime endTime (interval a) && decide (a.field = field) from funext fun a => Bool.and_comm _ _,
              ← List.filter_filter, filter_flatMap_iff]
            · constructor
              · intro h p hp hf hx
                rw [← hall p hp]
                by_contra hn
                rw [Bool.not_eq_true] at hn
                obtain ⟨x, hx, hr⟩ := hx
                have := h p (List.mem_filter.mpr ⟨hp, by simpa using hf⟩) hn x hx
                rw [(hkeep x).mpr hr] at this
                cases this
              · intro h p hp hn x hx
                obtain ⟨hp, hf⟩ := List.mem_filter.mp hp
                rw [← Bool.not_eq_true]
                intro hk
                have := (hall p hp).mpr (h p hp (by simpa using hf) ⟨x, hx, (hkeep x).mp hk⟩)
                rw [hn] at this
                cases this
            · intro p hp hn x hx
              rw [hkeep]
              exact (hall p (List.mem_filter.mp hp).1).mp hn x hx
    · cases h
  · cases h

/-! ### Error bounds -/

/-- Every value within the first bounds is within the second, for each column. -/
def Weaker (a b : List ErrorBound) : Prop :=
  ∀ (i : Nat) (y : ErrorBound), b[i]? = some y → ∃ x, a[i]? = some x ∧ ∀ real stored, WithinExact x real stored → WithinExact y real stored

theorem respects_weaker {a b : List ErrorBound} (h : Weaker a b) {p : Points} (hp : p.Respects a) : p.Respects b := by
  intro y hy x hx
  obtain ⟨z, hz, hw⟩ := h _ y hy
  exact hw _ _ (hp z hz x hx)

/-- **C59** (partial, copying): if all values in two tables are within the error bounds of the tables and the bounds of the target are not stricter,
then all values are within the bounds after copying. Missing: stricter bounds, see `C59_stricter`. -/
theorem C59_copy_partial (interval : Points → Int × Int) (st st' : State κ δ Points) (source target : κ) (startTime endTime : Option Int)
    (writeFails : Bool) (s t : Table δ Points) (hs : st source = some s) (ht : st target = some t) (hrs : TableRespects s) (hrt : TableRespects t)
    (hw : Weaker s.bounds t.bounds) (h : copyTimeSeriesTable interval st source target startTime endTime writeFails = (st', none)) :
    ∃ t', st' target = some t' ∧ t'.bounds = t.bounds ∧ TableRespects t' := by
  obtain ⟨s', t', copied, hs', ht', _, _, _, h1, _, h3, _⟩ := copy_items h
  rw [hs] at hs'
  rw [ht] at ht'
  injection hs' with hs'
  injection ht' with ht'
  subst hs' ht'
  refine ⟨_, h1, rfl, ?_⟩
  intro p hp
  rcases List.mem_append.mp hp with hp | hp
  · exact hrt p hp
  · exact respects_weaker hw (hrs p (h3.mem hp))

/-- **C59** (partial, moving): the same for moving to another table, whichever steps fail. -/
theorem C59_move_partial (st st' : State κ δ Points) (source target : κ) (writeFails truncateFails : Bool) (s t : Table δ Points)
    (hs : st source = some s) (ht : st target = some t) (hrs : TableRespects s) (hrt : TableRespects t) (hw : Weaker s.bounds t.bounds) (e : Option Error)
    (h : move st source target [] [] writeFails truncateFails = (st', e)) :
    ∃ t', st' target = some t' ∧ t'.bounds = t.bounds ∧ TableRespects t' := by
  unfold move at h
  split at h
  · injection h with h _
    subst h
    exact ⟨t, ht, rfl, hrt⟩
  · rename_i items hscan
    have hitems : items = s.items := by
      unfold moveScan at hscan
      rw [hs, ht] at hscan
      dsimp only at hscan
      split at hscan
      · split at hscan
        · cases hscan
        · injection hscan with hscan
          exact hscan.symm
      · cases hscan
    subst hitems
    dsimp only at h
    have hmoved : TableRespects { t with items := t.items ++ s.items } := by
      intro p hp
      rcases List.mem_append.mp hp with hp | hp
      · exact hrt p hp
      · exact respects_weaker hw (hrs p hp)
    have hst : addOthers ((addOthers st ([] : Others κ Points)).append target s.items) [] target = some { t with items := t.items ++ s.items } := by
      change State.append st target s.items target = _
      unfold State.append
      rw [ht]
      simp [State.set]
    split at h
    · injection h with h _
      subst h
      exact ⟨t, ht, rfl, hrt⟩
    · split at h
      · injection h with h _
        subst h
        exact ⟨_, hst, rfl, hmoved⟩
      · split at h
        · injection h with h _
          subst h
          exact ⟨_, hst, rfl, hmoved⟩
        · rename_i st₃ htr
          injection h with h _
          subst h
          unfold truncate at htr
          split at htr
          · cases htr
          · rename_i t₂ ht₂
            injection htr with htr
            subst htr
            by_cases hk : target = source
            · subst hk
              rw [hst] at ht₂
              injection ht₂ with ht₂
              subst ht₂
              refine ⟨{ t with items := [] }, by simp [State.set], rfl, ?_⟩
              intro p hp
              cases hp
            · exact ⟨{ t with items := t.items ++ s.items }, by simp only [State.set, if_neg hk]; exact hst, rfl, hmoved⟩

/-- The first and last timestamp of a segment. -/
def firstLast (p : Points) : Int × Int := (((p.points.map Prod.fst).head?).getD 0, ((p.points.map Prod.fst).getLast?).getD 0)

/-- A value that is stored as it is. -/
def exact (t : Int) : Int × FVal × FVal := (t, .fin false 1, .fin false 1)

/-- Two time series tables: the first has two fields, whose segments end at different times. -/
def twoFieldTables : State Nat Nat Points := fun k =>
  if k = 0 then some ⟨.timeSeries, [⟨"t", 0, false⟩, ⟨"a", 1, false⟩, ⟨"b", 1, false⟩], [.lossless, .lossless, .lossless],
    [⟨1, [exact 1, exact 2]⟩, ⟨1, [exact 3, exact 4]⟩, ⟨2, [exact 1, exact 2, exact 3]⟩, ⟨2, [exact 4]⟩]⟩
  else if k = 1 then some ⟨.timeSeries, [⟨"t", 0, false⟩, ⟨"a", 1, false⟩, ⟨"b", 1, false⟩], [.lossless, .lossless, .lossless], []⟩
  else none

/-- A range at the boundary of segments of all fields. -/
example : (copyTimeSeriesTable firstLast twoFieldTables 0 1 (some 4) none false).2 = none ∧
    (∀ field, field = 2 → timestampsOf (itemsOf (copyTimeSeriesTable firstLast twoFieldTables 0 1 (some 4) none false).1 1) field = [4]) ∧
    (copyTimeSeriesTable firstLast twoFieldTables 0 1 (some 1) (some 4) false).2 = none ∧
    timestampsOf (itemsOf (copyTimeSeriesTable firstLast twoFieldTables 0 1 (some 1) (some 4) false).1 1) 1 = [1, 2, 3, 4] := by
  refine ⟨by decide +kernel, ?_, by decide +kernel, by decide +kernel⟩
  rintro _ rfl
  decide +kernel

/-- **C46** is false of the code: copying the data points from time 3 copies other data points for each field and misses some. -/
theorem C46_boundary : (copyTimeSeriesTable firstLast twoFieldTables 0 1 (some 3) none false).2 = none ∧
    timestampsOf (itemsOf (copyTimeSeriesTable firstLast twoFieldTables 0 1 (some 3) none false).1 1) 1 = [3, 4] ∧
    timestampsOf (itemsOf (copyTimeSeriesTable firstLast twoFieldTables 0 1 (some 3) none false).1 1) 2 = [4] ∧
    (∀ p ∈ itemsOf twoFieldTables 0, Spans firstLast p) := by
  refine ⟨by decide +kernel, by decide +kernel, by decide +kernel, ?_⟩
  intro p hp
  have : p = ⟨1, [exact 1, exact 2]⟩ ∨ p = ⟨1, [exact 3, exact 4]⟩ ∨ p = ⟨2, [exact 1, exact 2, exact 3]⟩ ∨ p = ⟨2, [exact 4]⟩ := by
    simpa [itemsOf, twoFieldTables] using hp
  rcases this with rfl | rfl | rfl | rfl <;> unfold Spans <;> decide +kernel

/-- A time series table with an error bound of one and one without. -/
def twoBounds : State Nat Nat Points := fun k =>
  if k = 0 then some ⟨.timeSeries, [⟨"t", 0, false⟩, ⟨"a", 1, false⟩], [.lossless, .absolute (.fin false 1)],
    [⟨1, [(1, .fin false 10, .fin false (21 / 2)), (2, .fin false 11, .fin false (21 / 2))]⟩]⟩
  else if k = 1 then some ⟨.timeSeries, [⟨"t", 0, false⟩, ⟨"a", 1, false⟩], [.lossless, .lossless], []⟩
  else none

theorem twoBounds_source : TableRespects (δ := Nat) ⟨.timeSeries, [⟨"t", 0, false⟩, ⟨"a", 1, false⟩], [.lossless, .absolute (.fin false 1)],
    [⟨1, [(1, .fin false 10, .fin false (21 / 2)), (2, .fin false 11, .fin false (21 / 2))]⟩]⟩ := by
  intro p hp b hb x hx
  rw [List.mem_singleton] at hp
  subst hp
  injection hb with hb
  subst hb
  rcases List.mem_cons.mp hx with rfl | hx
  · change |ratOf false 10 - ratOf false (21 / 2)| ≤ 1 * (1 + 1 / 2 ^ 23)
    norm_num [ratOf]
  · rw [List.mem_singleton] at hx
    subst hx
    change |ratOf false 11 - ratOf false (21 / 2)| ≤ 1 * (1 + 1 / 2 ^ 23)
    norm_num [ratOf]

/-- The same bounds are not stricter. -/
example (b : List ErrorBound) : Weaker b b := fun _ y hy => ⟨y, hy, fun _ _ h => h⟩

/-- A bound of two is not stricter than a bound of one. -/
example : Weaker [.lossless, .absolute (.fin false 1)] [.lossless, .absolute (.fin false 2)] := by
  intro i y hy
  match i with
  | 0 => exact ⟨.lossless, rfl, by injection hy with hy; subst hy; exact fun _ _ h => h⟩
  | 1 =>
    injection hy with hy
    subst hy
    refine ⟨_, rfl, fun a b h => ?_⟩
    cases a <;> cases b <;> first | exact h | skip
    exact le_trans h (by norm_num)
  | _ + 2 => cases hy

/-- **C59** is false of the code: moving and copying to a table with stricter bounds succeed although the values are not within them. -/
theorem C59_stricter : (∃ s t, twoBounds 0 = some s ∧ twoBounds 1 = some t ∧ TableRespects s ∧ TableRespects t) ∧
    (∃ st' t', move twoBounds 0 1 [] [] false false = (st', none) ∧ st' 1 = some t' ∧ ¬ TableRespects t') ∧
    (∃ st' t', copyTimeSeriesTable firstLast twoBounds 0 1 none none false = (st', none) ∧ st' 1 = some t' ∧ ¬ TableRespects t') := by
  have hbad : ¬ TableRespects (δ := Nat) ⟨.timeSeries, [⟨"t", 0, false⟩, ⟨"a", 1, false⟩], [.lossless, .lossless],
      [] ++ [⟨1, [(1, .fin false 10, .fin false (21 / 2)), (2, .fin false 11, .fin false (21 / 2))]⟩]⟩ := by
    intro h
    have := h _ (List.mem_singleton.mpr rfl) .lossless rfl (1, .fin false 10, .fin false (21 / 2)) (List.mem_cons_self ..)
    change ratOf false 10 = ratOf false (21 / 2) at this
    norm_num [ratOf] at this
  refine ⟨⟨_, _, rfl, rfl, twoBounds_source, fun p hp => by cases hp⟩, ?_, ?_⟩
  · refine ⟨(move twoBounds 0 1 [] [] false false).1, _, ?_, ?_, hbad⟩
    · exact Prod.ext rfl (by decide +kernel)
    · decide +kernel
  · refine ⟨(copyTimeSeriesTable firstLast twoBounds 0 1 none none false).1, _, ?_, ?_, hbad⟩
    · exact Prod.ext rfl (by decide +kernel)
    · decide +kernel

end ModelarDB.Props
