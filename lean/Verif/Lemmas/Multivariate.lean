import Verif.Spec.Series
import Verif.Lemmas.ReadBack
import Mathlib.Data.List.Lex
import Mathlib.Order.Lex
/-
Grouping of sorted rows into series, for C14.
-/
namespace ModelarDB.Lemmas
open Model Spec

/-- What is stored for a group of rows. -/
def GroupBatches (log2 : Log2) (cols : List (Nat × ErrorBound)) (g : List Tag × List Row) (bs : List CompressedBatch) : Prop :=
  List.Forall₂ (fun c b => b.tags = g.1 ∧ b.fieldColumn = c.1 ∧
    tryCompressUnivariate log2 c.2 (g.2.map (·.time)) (g.2.map (·.field c.1)) = .segments b.segments) cols bs

theorem splitAndCompress_ok (log2 : Log2) (cols : List (Nat × ErrorBound)) {rows : List Row} (hne : rows ≠ []) (tags : List Tag) :
    ∃ bs, splitAndCompress log2 cols rows tags = some bs ∧ GroupBatches log2 cols (tags, rows) bs := by
  unfold splitAndCompress GroupBatches
  induction cols with
  | nil => exact ⟨[], rfl, .nil⟩
  | cons c cols ih =>
    obtain ⟨bs, h1, h2⟩ := ih
    have hlen : (rows.map (·.time)).length = (rows.map (·.field c.1)).length := by simp
    obtain ⟨segments, h, _⟩ := tryCompressWith_chain (log2 := log2) (eb := c.2)
      (goodFit_fitNextModel c.2 (rows.map (·.time)) (rows.map (·.field c.1)) hlen) (by simpa using hne) hlen
    have h' : tryCompressUnivariate log2 c.2 (rows.map (·.time)) (rows.map (·.field c.1)) = .segments segments := h
    refine ⟨⟨tags, c.1, segments⟩ :: bs, ?_, .cons ⟨rfl, rfl, h'⟩ h2⟩
    rw [List.mapM_cons, h1, h']
    rfl

theorem any_ne {a b : List Tag} (h : a.length = b.length) : (a.zip b).any (fun p => p.1 != p.2) = true ↔ a ≠ b := by
  induction a generalizing b with
  | nil => cases b <;> simp_all
  | cons x xs ih =>
    cases b with
    | nil => simp at h
    | cons y ys =>
      simp only [List.zip_cons_cons, List.any_cons, Bool.or_eq_true, bne_iff_ne, ne_eq, List.cons.injEq, not_and]
      rw [ih (by simpa using h)]
      by_cases hx : x = y <;> simp [hx]

/-- The invariant of the loop after the rows `done`. -/
structure ScanInv (log2 : Log2) (cols : List (Nat × ErrorBound)) (first : List Tag) (done : List Row) (st : ScanState)
    (gs : List (List Tag × List Row)) (cur : List Row) (outs : List (List CompressedBatch)) : Prop where
  split : done = gs.flatMap (·.2) ++ cur
  start : st.rowIndexStart = (gs.flatMap (·.2)).length
  curTags : ∀ r ∈ cur, r.tags = st.tagValues
  groups : ∀ g ∈ gs, g.2 ≠ [] ∧ ∀ r ∈ g.2, r.tags = g.1
  order : (gs.map (·.1) ++ [st.tagValues]).Pairwise (· < ·)
  nonempty : cur = [] → done = [] ∧ st.tagValues = first
  out : st.compressedData = outs.flatten
  batches : List.Forall₂ (GroupBatches log2 cols) gs outs

theorem scan_step {log2 : Log2} {cols : List (Nat × ErrorBound)} {first : List Tag} {sorted done rest : List Row} {row : Row}
    {st : ScanState} {gs : List (List Tag × List Row)} {cur : List Row} {outs : List (List CompressedBatch)}
    (hs : sorted = done ++ row :: rest) (hsort : sorted.Pairwise fun a b => rowLe a b = true)
    (hlen : st.tagValues.length = row.tags.length) (hfirst : done = [] → row.tags = first)
    (h : ScanInv log2 cols first done st gs cur outs) :
    ∃ st' gs' cur' outs', scanStep log2 cols sorted st (row, done.length) = some st' ∧
      ScanInv log2 cols first (done ++ [row]) st' gs' cur' outs' ∧ st'.tagValues = row.tags := by
  unfold scanStep
  dsimp only
  by_cases hnew : st.tagValues = row.tags
  · rw [if_neg (by rw [any_ne hlen]; exact fun h => h hnew)]
    refine ⟨st, gs, cur ++ [row], outs, rfl, ?_, hnew⟩
    refine ⟨by rw [h.split, List.append_assoc], h.start, ?_, h.groups, h.order, by simp, h.out, h.batches⟩
    intro r hr
    rcases List.mem_append.mp hr with hr | hr
    · exact h.curTags r hr
    · rw [List.mem_singleton.mp hr, hnew]
  · rw [if_pos ((any_ne hlen).mpr hnew)]
    have hcur : cur ≠ [] := by
      intro hc
      obtain ⟨h1, h2⟩ := h.nonempty hc
      exact hnew (by rw [h2, hfirst h1])
    have hslice : (sorted.drop st.rowIndexStart).take (done.length - st.rowIndexStart) = cur := by
      rw [hs, h.start, h.split, List.append_assoc, List.drop_left, List.length_append, Nat.add_sub_cancel_left, List.take_left]
    rw [hslice]
    obtain ⟨bs, h1, h2⟩ := splitAndCompress_ok log2 cols hcur st.tagValues
    rw [h1]
    refine ⟨_, gs ++ [(st.tagValues, cur)], [row], outs ++ [bs], rfl, ?_, rfl⟩
    refine ⟨by simp [h.split], by simp [h.split], by simp, ?_, ?_, by simp, by simp [h.out], ?_⟩
    · intro g hg
      rcases List.mem_append.mp hg with hg | hg
      · exact h.groups g hg
      · rw [List.mem_singleton.mp hg]
        exact ⟨hcur, h.curTags⟩
    · rw [List.map_append, List.map_singleton, List.pairwise_append]
      refine ⟨h.order, by simp, ?_⟩
      -- the last row with the previous tags
      have hlt : st.tagValues < row.tags := by
        obtain ⟨r, hr⟩ := List.exists_mem_of_ne_nil cur hcur
        rw [hs, List.pairwise_append] at hsort
        have := hsort.2.2 r (by rw [h.split]; simp [hr]) row (by simp)
        unfold rowLe at this
        rw [h.curTags r hr] at this
        simpa [hnew] using this
      intro a ha b hb
      rw [List.mem_singleton.mp hb]
      rcases List.mem_append.mp ha with ha | ha
      · have := (List.pairwise_append.mp h.order).2.2 a ha st.tagValues (by simp)
        exact lt_trans this hlt
      · rw [List.mem_singleton.mp ha]; exact hlt
    · exact List.rel_append h.batches (.cons h2 .nil)

theorem scan_all {log2 : Log2} {cols : List (Nat × ErrorBound)} {first : List Tag} {sorted : List Row} {n : Nat}
    (hsort : sorted.Pairwise fun a b => rowLe a b = true) (hn : ∀ r ∈ sorted, r.tags.length = n)
    (hfirst : sorted.head?.map (·.tags) = some first) (done rest : List Row) {st : ScanState} {gs : List (List Tag × List Row)} {cur : List Row}
    {outs : List (List CompressedBatch)} (hs : sorted = done ++ rest) (hst : st.tagValues.length = n)
    (h : ScanInv log2 cols first done st gs cur outs) :
    ∃ st' gs' cur' outs', (rest.zipIdx done.length).foldlM (scanStep log2 cols sorted) st = some st' ∧
      ScanInv log2 cols first sorted st' gs' cur' outs' := by
  induction rest generalizing done st gs cur outs with
  | nil =>
    rw [List.append_nil] at hs
    exact ⟨st, gs, cur, outs, rfl, hs ▸ h⟩
  | cons row rest ih =>
    have hrow : row.tags.length = n := hn row (by rw [hs]; simp)
    obtain ⟨st', gs', cur', outs', h1, h2, h3⟩ := scan_step hs hsort (by rw [hst, hrow]) (by
      rintro rfl
      rw [hs] at hfirst
      simpa using hfirst) h
    rw [List.zipIdx_cons, List.foldlM_cons, h1]
    simp only [Option.bind_eq_bind, Option.bind_some]
    have := ih (done ++ [row]) (by rw [hs]; simp) (by rw [h3, hrow]) h2
    rwa [List.length_append, List.length_singleton] at this

/-- The groups of a batch. -/
theorem compressMultivariate_groups (log2 : Log2) {sort : SortRows} (hsort : SortsRows sort) (n : Nat)
    (cols : List (Nat × ErrorBound)) {rows : List Row} (hne : rows ≠ []) (hn : ∀ r ∈ rows, r.tags.length = n) :
    ∃ gs outs, compressMultivariate log2 sort n cols rows = some outs.flatten ∧
      List.Forall₂ (GroupBatches log2 cols) gs outs ∧ sort rows = gs.flatMap (·.2) ∧
      (gs.map (·.1)).Pairwise (· < ·) ∧ ∀ g ∈ gs, g.2 ≠ [] ∧ ∀ r ∈ g.2, r.tags = g.1 := by
  obtain ⟨hperm, hord⟩ := hsort rows
  have hn' : ∀ r ∈ sort rows, r.tags.length = n := fun r hr => hn r (hperm.mem_iff.mp hr)
  have hne' : sort rows ≠ [] := fun h => hne (by rw [h] at hperm; exact hperm.nil_eq.symm)
  obtain ⟨r, rest, hr⟩ := List.exists_cons_of_ne_nil hne'
  unfold compressMultivariate
  dsimp only
  have hrn := hn' r (by rw [hr]; simp)
  have hfirst : (if n = 0 then some [] else (sort rows).head?.map (·.tags)) = some r.tags := by
    split
    · rename_i h0
      rw [h0] at hrn
      rw [List.length_eq_zero_iff.mp hrn]
    · rw [hr]; rfl
  rw [hfirst]
  dsimp only
  obtain ⟨st, gs, cur, outs, h1, h2⟩ := scan_all (log2 := log2) (cols := cols) (first := r.tags) hord hn'
    (by rw [hr]; rfl) [] (sort rows) (st := ⟨r.tags, 0, []⟩) (gs := []) (cur := []) (outs := []) rfl hrn
    ⟨rfl, rfl, by simp, by simp, by simp, fun _ => ⟨rfl, rfl⟩, rfl, .nil⟩
  rw [List.length_nil] at h1
  rw [h1]
  dsimp only
  have hcur : cur ≠ [] := fun h => hne' (h2.nonempty h).1
  have hslice : ((sort rows).drop st.rowIndexStart).take ((sort rows).length - st.rowIndexStart) = cur := by
    rw [h2.start]
    generalize hS : sort rows = S at h2
    rw [h2.split, List.drop_left, List.length_append, Nat.add_sub_cancel_left, List.take_length]
  rw [hslice]
  obtain ⟨bs, k1, k2⟩ := splitAndCompress_ok log2 cols hcur st.tagValues
  rw [k1]
  refine ⟨gs ++ [(st.tagValues, cur)], outs ++ [bs], by simp [h2.out], List.rel_append h2.batches (.cons k2 .nil), ?_, ?_, ?_⟩
  · rw [h2.split]; simp
  · rw [List.map_append]; exact h2.order
  · intro g hg
    rcases List.mem_append.mp hg with hg | hg
    · exact h2.groups g hg
    · rw [List.mem_singleton.mp hg]
      exact ⟨hcur, h2.curTags⟩

/-- A group holds exactly the rows with its tags. -/
theorem filter_groups {gs : List (List Tag × List Row)} (hord : (gs.map (·.1)).Pairwise (· < ·))
    (hg : ∀ g ∈ gs, ∀ r ∈ g.2, r.tags = g.1) {g : List Tag × List Row} (hmem : g ∈ gs) :
    (gs.flatMap (·.2)).filter (fun r => r.tags = g.1) = g.2 := by
  induction gs with
  | nil => cases hmem
  | cons x gs ih =>
    rw [List.map_cons, List.pairwise_cons] at hord
    rw [List.flatMap_cons, List.filter_append]
    rcases List.mem_cons.mp hmem with rfl | hmem
    · have h1 : g.2.filter (fun r => r.tags = g.1) = g.2 := by
        rw [List.filter_eq_self]
        intro r hr
        simpa using hg g (by simp) r hr
      have h2 : (gs.flatMap (·.2)).filter (fun r => r.tags = g.1) = [] := by
        rw [List.filter_eq_nil_iff]
        intro r hr
        obtain ⟨y, hy, hry⟩ := List.mem_flatMap.mp hr
        have hlt := hord.1 y.1 (List.mem_map.mpr ⟨y, hy, rfl⟩)
        have := hg y (by simp [hy]) r hry
        rw [decide_eq_true_eq, this]
        exact hlt.ne'
      rw [h1, h2, List.append_nil]
    · have h1 : x.2.filter (fun r => r.tags = g.1) = [] := by
        rw [List.filter_eq_nil_iff]
        intro r hr
        have hlt := hord.1 g.1 (List.mem_map.mpr ⟨g, hmem, rfl⟩)
        have := hg x (by simp) r hr
        rw [decide_eq_true_eq, this]
        exact hlt.ne
      rw [h1, List.nil_append]
      exact ih hord.2 (fun y hy => hg y (by simp [hy])) hmem

end ModelarDB.Lemmas
