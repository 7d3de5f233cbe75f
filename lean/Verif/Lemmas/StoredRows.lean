import Verif.Lemmas.EndToEnd
import Verif.Lemmas.StorageOrder
import Verif.Props.C84Regular
import Verif.Spec.StoredRows
import Verif.Spec.StorageOrder
/-
Lemmas for aggregates of the rows that are ingested: the series that are compressed satisfy what the rows satisfy.
-/
namespace ModelarDB.Lemmas.StoredRows
open Model Model.StoredTable Spec Spec.Storage Props

variable {α : Type}

/-- The series of a field that is compressed for a batch of segments. -/
def seriesOf (value : α → Nat → Nat) (field : Nat) (x : Model.Storage.Chunk α) : Series :=
  (x.points.map Prod.fst, x.points.map fun p => value p.2 field)

theorem zip_series (value : α → Nat → Nat) (field : Nat) (x : Model.Storage.Chunk α) :
    (seriesOf value field x).1.zip (seriesOf value field x).2 = x.points.map fun p => (p.1, value p.2 field) := by
  unfold seriesOf
  rw [List.zip_map']

theorem linearSlack_mono {n k : Nat} (h : n ≤ k) {M G T D : ℚ} (hGT : 0 ≤ G * T + M) : linearSlack n M G T D ≤ linearSlack k M G T D := by
  unfold linearSlack
  have : (n : ℚ) ≤ k := by exact_mod_cast h
  have := mul_le_mul_of_nonneg_right this hGT
  have h2 : (0 : ℚ) < 2 ^ 47 := by norm_num
  have := div_le_div_of_nonneg_right this h2.le
  linarith

/-- The scale of a series that is compressed. -/
theorem chunk_scale {eb : ErrorBound} {n : Nat} {value : α → Nat → Nat} {field : Nat} {rows : List (Model.Storage.Row α)} {m M G T D : ℚ}
    (h : RowsScale eb n value field rows m M G T D) {x : Model.Storage.Chunk α} (hne : x.points ≠ []) (hx : ∀ r ∈ chunkRows x, r ∈ rows)
    (hinc : StrictlyIncreasing (x.points.map Prod.fst)) (hlen : x.points.length ≤ n) :
    SeriesScale eb ((seriesOf value field x).1.zip (seriesOf value field x).2) m M G T D := by
  have hmem : ∀ p ∈ x.points, (⟨x.table, x.tags, p.1, p.2⟩ : Model.Storage.Row α) ∈ rows := fun p hp => hx _ (List.mem_map.mpr ⟨p, hp, rfl⟩)
  have hM : 0 ≤ M := le_trans (by positivity) h.limit.1
  have hT : 0 ≤ T := by
    obtain ⟨p, rest, hp⟩ := List.exists_cons_of_ne_nil hne
    exact le_trans (abs_nonneg _) (h.time _ (hmem p (by rw [hp]; simp)))
  have hGT : 0 ≤ G * T + M := by
    have := mul_nonneg h.positive.2.1 hT
    linarith
  have hcast : (x.points.length : ℚ) ≤ n := by exact_mod_cast hlen
  have hpair := List.pairwise_map.mp hinc
  rw [zip_series]
  exact {
    value := by
      intro q hq _
      obtain ⟨p, hp, rfl⟩ := List.mem_map.mp hq
      have h1 := h.most ⟨x.table, x.tags, p.1, p.2⟩ (hmem p hp)
      dsimp only at h1 ⊢
      exact h1
    least := by
      intro q hq _
      obtain ⟨p, hp, rfl⟩ := List.mem_map.mp hq
      have h1 := h.least ⟨x.table, x.tags, p.1, p.2⟩ (hmem p hp)
      dsimp only at h1 ⊢
      exact h1
    time := by
      intro q hq
      obtain ⟨p, hp, rfl⟩ := List.mem_map.mp hq
      have h1 := h.time ⟨x.table, x.tags, p.1, p.2⟩ (hmem p hp)
      dsimp only at h1 ⊢
      exact h1
    apart := by
      rw [List.pairwise_map]
      refine hpair.imp_of_mem fun {p q} hp hq hlt => ?_
      exact h.apart _ (hmem p hp) _ (hmem q hq) rfl hlt
    slope := by
      rw [List.pairwise_map]
      refine hpair.imp_of_mem fun {p q} hp hq hlt _ _ => ?_
      have h1 := h.slope ⟨x.table, x.tags, p.1, p.2⟩ (hmem p hp) ⟨x.table, x.tags, q.1, q.2⟩ (hmem q hq) rfl hlt
      dsimp only at h1 ⊢
      exact h1
    positive := h.positive
    limit := ⟨h.limit.1, h.limit.2.1, h.limit.2.2.1⟩
    rounding := by
      rw [List.length_map, List.map_map]
      have hn := mul_le_mul_of_nonneg_right hcast hGT
      rcases h.rounding with ⟨rfl, h1⟩ | ⟨h1, h2, h3⟩
      · refine Or.inl ⟨rfl, lt_of_le_of_lt ?_ h1⟩
        have := div_le_div_of_nonneg_right hn (show (0 : ℚ) ≤ 2 ^ 46 by norm_num)
        linarith
      · refine Or.inr ⟨fun v hv hf => ?_, le_trans ?_ h2, h3⟩
        · obtain ⟨p, hp, rfl⟩ := List.mem_map.mp hv
          exact le_trans (linearSlack_mono hlen hGT) (h1 _ (List.mem_map.mpr ⟨_, hmem p hp, rfl⟩) hf)
        · have := div_le_div_of_nonneg_right hn (show (0 : ℚ) ≤ 2 ^ 47 by norm_num)
          linarith }

/-- What is saved of a series with one interval has that interval. -/
theorem chunk_regular {T : String} {env : Model.Storage.Env α} {e : Model.Storage.Engine α} (hi' : Storage.Inv env e) (ho : StorageOrder.Ordered T e)
    (hsub : (savedRows e).Subperm e.received)
    (h : RegularRows (rowsOfTable T e.received)) {x : Model.Storage.Chunk α} (hx : x ∈ e.c.saved) (ht : x.table = T)
    (hinc : StrictlyIncreasing (x.points.map Prod.fst)) : ∃ d, (x.points.map Prod.fst).IsChain fun t u => u - t = d := by
  obtain ⟨interval, h⟩ := h
  have hsep := StorageOrder.separated_of_ordered ho
  refine ⟨interval x.tags, List.isChain_iff_getElem.mpr fun i hi => ?_⟩
  rw [List.length_map] at hi
  have hinc' := List.pairwise_iff_getElem.mp (List.pairwise_map.mp hinc)
  have hsaved : ∀ y ∈ e.c.saved, ∀ p ∈ y.points, (⟨y.table, y.tags, p.1, p.2⟩ : Model.Storage.Row α) ∈ savedRows e := fun y hy p hp =>
    List.mem_flatMap.mpr ⟨y, hy, List.mem_map.mpr ⟨p, hp, rfl⟩⟩
  have hrow : ∀ p ∈ x.points, (⟨x.table, x.tags, p.1, p.2⟩ : Model.Storage.Row α) ∈ rowsOfTable T e.received := fun p hp =>
    List.mem_filter.mpr ⟨hsub.subset (hsaved x hx p hp), by simpa using ht⟩
  have hp := List.getElem_mem (l := x.points) (n := i) (by omega)
  have hq := List.getElem_mem (l := x.points) (n := i + 1) hi
  obtain ⟨h1, h2, next, h3, h4, h5⟩ := h _ (hrow _ hp) _ (hrow _ hq) rfl (hinc' i (i + 1) (by omega) hi (by omega))
  rw [List.getElem_map, List.getElem_map]
  dsimp only at h1 h2 h4 h5
  by_contra hc
  have hlt : next.ts < (x.points[i + 1]).1 := by omega
  have hgt : (x.points[i]'(by omega)).1 < next.ts := by omega
  obtain ⟨h6, h7⟩ := List.mem_filter.mp h3
  have h7 : next.table = T := by simpa using h7
  by_cases hs : next ∈ savedRows e
  · obtain ⟨y, hy, hny⟩ := List.mem_flatMap.mp hs
    obtain ⟨r, hr, rfl⟩ := List.mem_map.mp hny
    dsimp only at h4 h7 hlt hgt
    by_cases hxy : x = y
    · subst hxy
      obtain ⟨j, hj, rfl⟩ := List.getElem_of_mem hr
      rcases Nat.lt_trichotomy j i with hji | rfl | hji
      · have := hinc' j i hj (by omega) hji
        omega
      · omega
      · rcases Nat.eq_or_lt_of_le hji with rfl | hji
        · exact absurd hlt (lt_irrefl _)
        · have := hinc' (i + 1) j hi hj hji
          omega
    · have hsymm : Std.Symm fun x y : Model.Storage.Chunk α => x.table = T → y.table = T → x.tags = y.tags →
          (∀ p ∈ x.points, ∀ q ∈ y.points, p.1 < q.1) ∨ ∀ p ∈ x.points, ∀ q ∈ y.points, q.1 < p.1 :=
        ⟨fun a b hab h1 h2 h3 => (hab h2 h1 h3.symm).symm.imp (fun h p hp q hq => h q hq p hp) fun h p hp q hq => h q hq p hp⟩
      have := List.Pairwise.forall hsep hx hy hxy ht h7 h4.symm
      rcases this with h8 | h8
      · have := h8 _ hq _ hr
        omega
      · have := h8 _ hp _ hr
        omega
  · have := StorageOrder.saved_before hi' ho (hsaved x hx _ hq) h6 hs ht h7 h4.symm
    dsimp only at this
    omega

/-- A series with a scale whose linear models can be read has bounded models. -/
theorem numeric_of_scale {eb : ErrorBound} (hvalid : ValidErrorBound eb) {p : Series} (w : StoredWithin eb p) {m M G T D : ℚ}
    (h : SeriesScale eb (p.1.zip p.2) m M G T D) (hbig : 3 * M * T / D ≤ 2 ^ 120) : NumericSeries eb p.1 p.2 (3 * M) T D := by
  have hM : 0 ≤ M := le_trans (by positivity) h.limit.1
  have hmem : ∀ v ∈ p.2, ∃ t, (t, v) ∈ p.1.zip p.2 := by
    intro v hv
    obtain ⟨i, hi, rfl⟩ := List.getElem_of_mem hv
    refine ⟨p.1[i]'(by rw [w.length]; exact hi), ?_⟩
    rw [List.mem_iff_getElem]
    exact ⟨i, by rw [List.length_zip, w.length]; simpa using hi, by rw [List.getElem_zip]⟩
  have hreal : ∀ v, FiniteBits v → realValue v = numberOf (FVal.ofBits32 v) := by
    intro v hv
    unfold realValue
    cases hx : FVal.ofBits32 v with
    | fin s q => rfl
    | _ => unfold FiniteBits at hv; rw [hx] at hv; cases hv
  have hvM : ∀ v ∈ p.2, |numberOf (FVal.ofBits32 v)| ≤ M ∧ deviationOf eb (numberOf (FVal.ofBits32 v)) ≤ 2 * M := by
    intro v hv
    obtain ⟨t, ht⟩ := hmem v hv
    have hf : FiniteBits v := w.finite v hv
    have h1 := h.value _ ht hf
    have h2 := h.least _ ht hf
    rw [hreal v hf] at h1 h2
    refine ⟨h1, ?_⟩
    have hm := h.positive.1
    have h3 : allowed eb (numberOf (FVal.ofBits32 v)) ≤ M := by linarith
    unfold deviationOf
    calc allowed eb (numberOf (FVal.ofBits32 v)) * (1 + 1 / 2 ^ 22) ≤ M * (1 + 1 / 2 ^ 22) := mul_le_mul_of_nonneg_right h3 (by norm_num)
      _ ≤ 2 * M := by nlinarith
  refine ⟨hvalid, w.length, w.nonempty, w.range, w.increasing, w.size, w.bits, w.finite, fun v hv => by linarith [(hvM v hv).1], ?_, ?_, h.positive.2.2,
    ⟨by linarith [h.limit.1], ?_, h.limit.2.1, hbig⟩, ?_⟩
  · intro t ht
    obtain ⟨i, hi, rfl⟩ := List.getElem_of_mem ht
    exact h.time (p.1[i], p.2[i]'(by rw [← w.length]; exact hi)) (by
      rw [List.mem_iff_getElem]
      exact ⟨i, by rw [List.length_zip, ← w.length]; simpa using hi, by rw [List.getElem_zip]⟩)
  · rw [List.pairwise_iff_getElem]
    intro i j hi hj hij
    have := List.pairwise_iff_getElem.mp h.apart i j (by rw [List.length_zip, ← w.length]; simpa using hi)
      (by rw [List.length_zip, ← w.length]; simpa using hj) hij
    simpa [List.getElem_zip] using this
  · have hT : 0 ≤ T := by
      obtain ⟨v, rest, hv⟩ := List.exists_cons_of_ne_nil (show p.2 ≠ [] from fun hc => w.nonempty (List.length_eq_zero_iff.mp (by rw [w.length, hc]; rfl)))
      obtain ⟨t, ht⟩ := hmem v (by rw [hv]; simp)
      exact le_trans (abs_nonneg _) (h.time _ ht)
    have := mul_nonneg h.positive.2.1 hT
    have := h.limit.2.2
    linarith [show (2 : ℚ) ^ 100 * 3 ≤ 2 ^ 120 by norm_num]
  · intro i hi hty hkept
    rcases fitNextModel_result eb p.1 p.2 i (by simp [w.length]; have := w.length; omega) with ⟨q, k, hk, hk', hpl, hacc, hm⟩ | ⟨sw, k, hk, hk', hsl, hacc, hm⟩
    · rw [hm] at hty
      cases hty
    rw [zip_drop_take p.1 p.2 hk, ← hsl] at hacc
    have htwo : 2 ≤ sw.length := by
      rw [hm] at hkept
      exact kept_length hkept
    have hel : i + sw.length - 1 < p.1.length := by
      obtain ⟨_, _, f3, _⟩ := goodFit_fitNextModel eb p.1 p.2 w.length i hi
      dsimp only at f3
      rw [show (fitNextModel i eb p.1 p.2).endIndex = i + sw.length - 1 by rw [hm]; rfl] at f3
      exact f3
    obtain ⟨h1, h2⟩ := w.linear i hi sw hm hkept hacc _ _ (List.getElem?_eq_getElem hi) (List.getElem?_eq_getElem hel)
    obtain ⟨v, hv, hr⟩ := forall₂_right h1 (List.mem_of_getLast? h2)
    rw [show (fitNextModel i eb p.1 p.2).modelLastValue = (sw.model f64Ops).2.toBits32 by rw [hm]; rfl]
    have hv' := sliceIncl_mem hv
    obtain ⟨k1, k2⟩ := within_deviation hvalid (w.finite v hv') hr
    refine ⟨k1, ?_⟩
    obtain ⟨a, b⟩ := hvM v hv'
    have c := abs_sub_abs_le_abs_sub (numberOf (FVal.ofBits32 (sw.model f64Ops).2.toBits32)) (numberOf (FVal.ofBits32 v))
    rw [abs_sub_comm] at c
    linarith

end ModelarDB.Lemmas.StoredRows
