import Verif.Lemmas.EndToEndRows
import Verif.Spec.GeneratedRows
/-
Lemmas on queries of generated columns, for C77.
-/
namespace ModelarDB.Lemmas.GeneratedRows
open Model Model.Query Model.TableDefinition Model.StoredTable Spec Lemmas Props

variable {ε : Type}

/-- The rows of columns of the same length. -/
theorem rowsOfColumns_eq {columns : List (List Cell)} {n : Nat} (hne : columns ≠ []) (hlen : ∀ c ∈ columns, c.length = n) :
    (rowsOfColumns columns).map (fun cells => cells.map some) = (List.range n).map fun i => columns.map fun c => c[i]? := by
  cases columns with
  | nil => exact absurd rfl hne
  | cons c columns =>
    unfold rowsOfColumns
    dsimp only
    rw [hlen c (by simp), List.map_map]
    refine List.map_congr_left fun i hi => ?_
    have hi' := List.mem_range.mp hi
    simp only [Function.comp]
    have : ∀ l : List (List Cell), (∀ c ∈ l, c.length = n) → (l.filterMap fun column => column[i]?).map some = l.map fun c => c[i]? := by
      intro l hl
      induction l with
      | nil => rfl
      | cons d l ih =>
        have hd : i < d.length := by rw [hl d (by simp)]; exact hi'
        rw [List.filterMap_cons_some (f := fun column : List Cell => column[i]?) (List.getElem?_eq_getElem hd), List.map_cons, List.map_cons,
          ih fun c hc => hl c (List.mem_cons_of_mem _ hc), List.getElem?_eq_getElem hd]
    exact this _ hlen

/-- Columns are given by their rows. -/
theorem columns_of_rows {names : List String} {cell : TableRow → String → Option Cell} {columns : List (List Cell)} {n : Nat}
    (hcount : columns.length = names.length) (hlen : ∀ c ∈ columns, c.length = n) {part : List TableRow} (hpart : part.length = n)
    (h : ((List.range n).map fun i => columns.map fun c => c[i]?) = part.map fun row => names.map (cell row)) :
    (∀ row ∈ part, ∀ name ∈ names, (cell row name).isSome) ∧
      columns = names.map fun name => part.map fun row => (cell row name).getD (.time 0) := by
  have hget : ∀ (j : Nat) (hj : j < columns.length) (hj' : j < names.length) (i : Nat) (hi : i < part.length),
      columns[j][i]? = cell part[i] names[j] := by
    intro j hj hj' i hi
    have h1 := congrArg (fun l => l[i]?) h
    simp only [List.getElem?_map, List.getElem?_range (hpart ▸ hi : i < n), List.getElem?_eq_getElem hi, Option.map_some,
      Option.some.injEq] at h1
    have h2 := congrArg (fun l => l[j]?) h1
    simpa [List.getElem?_eq_getElem hj, List.getElem?_eq_getElem hj'] using h2
  constructor
  · intro row hrow name hname
    obtain ⟨i, hi, rfl⟩ := List.getElem_of_mem hrow
    obtain ⟨j, hj, rfl⟩ := List.getElem_of_mem hname
    have hj' : j < columns.length := by omega
    rw [← hget j hj' hj i hi, List.getElem?_eq_getElem (by rw [hlen _ (List.getElem_mem hj')]; omega)]
    rfl
  · refine List.ext_getElem (by simp [hcount]) fun j hj hj' => ?_
    have hlenj := hlen _ (List.getElem_mem hj)
    refine List.ext_getElem (by simp [hlenj, hpart]) fun i hi hi' => ?_
    have hip : i < part.length := by omega
    have := hget j hj (by omega) i hip
    rw [List.getElem?_eq_getElem hi] at this
    simp [← this]

/-- The rows of the batches are split as the batches. -/
theorem split_rows {names : List String} (hnames : names ≠ []) {cell : TableRow → String → Option Cell} :
    ∀ {out : List (List (List Cell))} {returned : List TableRow},
      (∀ columns ∈ out, columns.length = names.length ∧ ∃ n, ∀ c ∈ columns, c.length = n) →
      (out.flatMap rowsOfColumns).map (fun cells => cells.map some) = returned.map (fun row => names.map (cell row)) →
      ∃ parts : List (List TableRow), parts.flatten = returned ∧ List.Forall₂ (fun part columns =>
        (∀ row ∈ part, ∀ name ∈ names, (cell row name).isSome) ∧
          columns = names.map fun name => part.map fun row => (cell row name).getD (.time 0)) parts out := by
  intro out
  induction out with
  | nil =>
    intro returned _ h
    cases returned with
    | nil => exact ⟨[], rfl, .nil⟩
    | cons r rs => simp at h
  | cons columns out ih =>
    intro returned hshape h
    obtain ⟨hcount, n, hlen⟩ := hshape columns (by simp)
    have hne : columns ≠ [] := by
      intro hnil
      rw [hnil] at hcount
      exact hnames (List.length_eq_zero_iff.mp hcount.symm)
    rw [List.flatMap_cons, List.map_append, rowsOfColumns_eq hne hlen] at h
    have hret : returned.map (fun row => names.map (cell row)) =
        (returned.take n).map (fun row => names.map (cell row)) ++ (returned.drop n).map fun row => names.map (cell row) := by
      rw [← List.map_append, List.take_append_drop]
    have hn : n ≤ returned.length := by
      have := congrArg List.length h
      simp at this
      omega
    rw [hret] at h
    obtain ⟨h1, h2⟩ := List.append_inj h (by simp [hn])
    obtain ⟨parts, g1, g2⟩ := ih (fun c hc => hshape c (List.mem_cons_of_mem _ hc)) h2
    refine ⟨returned.take n :: parts, by rw [List.flatten_cons, g1, List.take_append_drop], .cons ?_ g2⟩
    exact columns_of_rows hcount hlen (by simp [hn]) h1

theorem mapM_some_of_isSome {α β : Type} {f : α → Option β} {l : List α} (d : β) (h : ∀ a ∈ l, (f a).isSome) :
    l.mapM f = some (l.map fun a => (f a).getD d) := by
  rw [mapM_option_eq_some, List.map_map]
  refine List.map_congr_left fun a ha => ?_
  obtain ⟨b, hb⟩ := Option.isSome_iff_exists.mp (h a ha)
  simp [hb]

theorem mapM_none {α β : Type} {f : α → Option β} {l : List α} (h : l.mapM f = none) : ∃ a ∈ l, f a = none := by
  induction l with
  | nil => simp at h
  | cons a l ih =>
    rw [List.mapM_cons] at h
    cases ha : f a with
    | none => exact ⟨a, by simp, ha⟩
    | some b =>
      cases hl : l.mapM f with
      | none =>
        obtain ⟨c, hc, hf⟩ := ih hl
        exact ⟨c, List.mem_cons_of_mem _ hc, hf⟩
      | some bs => simp [ha, hl] at h

/-- Only the values of expressions for the batch that is read matter. -/
theorem finish_congr {κ : Type} {evaluate evaluate' : ε → List κ → Option κ} {batch : List κ} (h : ∀ e, evaluate e batch = evaluate' e batch) (plan : Plan ε) :
    finish evaluate plan batch = finish evaluate' plan batch := by
  have : ∀ (generate : List (Nat × ε)) (n : Nat) (columns : List κ), generateColumns evaluate batch generate n columns =
      generateColumns evaluate' batch generate n columns := by
    intro generate
    induction generate with
    | nil => intro n columns; rfl
    | cons g generate ih =>
      intro n columns
      obtain ⟨i, e⟩ := g
      simp only [generateColumns, h, ih]
  simp only [finish, generateAs, this]

/-- What is returned for a batch of the stored columns of some rows. -/
theorem finish_part {env : Env ε} {w : World ε StoredSegment} (horder : AnyOrder w.hashOrder) {name : String}
    {qs : List Column} {bs : List ErrorBound} {gs : List (Option (Generated ε))} {m : Metadata ε} (hm : tryNew name qs bs gs = .ok m)
    {projection : List Nat} (hne : projection ≠ []) {plan : Plan ε} (hplan : planScan env w.hashOrder m projection = .ok plan)
    (hexec : plan.executable = true) {value : ε → List Cell → Option Cell} (hrow : RowWise env.refs w.meaning value)
    {part : List TableRow}
    (hsome : ∀ row ∈ part, ∀ name ∈ plan.joinSchema.map (·.name), (storedCell m row name).isSome) :
    ReturnsPart env.refs m value projection part (finish (evaluateGenerated env w plan.joinSchema) plan
      ((plan.joinSchema.map (·.name)).map fun name => part.map fun row => (storedCell m row name).getD (.time 0))) := by
  have hc40 := C40_columns (κ := List Cell) horder hm hplan hexec (fun e f => ((env.refs e).mapM f).bind (w.meaning e part.length))
    (by
      intro e f g h
      congr 1
      have : ∀ l : List String, (∀ n ∈ l, f n = g n) → l.mapM f = l.mapM g := by
        intro l hl
        induction l with
        | nil => rfl
        | cons a l ih => rw [List.mapM_cons, List.mapM_cons, hl a (by simp), ih fun n hn => hl n (List.mem_cons_of_mem _ hn)]
      exact this _ h)
    (fun name => part.map fun row => (storedCell m row name).getD (.time 0))
  have hcount : rowCount (plan.joinSchema.map fun c => part.map fun row => (storedCell m row c.name).getD (.time 0)) = part.length := by
    simp only [Plan.executable, Bool.and_eq_true, decide_eq_true_eq, Bool.not_eq_true', List.isEmpty_eq_false_iff] at hexec
    cases h : plan.joinSchema with
    | nil => rw [h] at hexec; exact absurd (List.length_eq_zero_iff.mp hexec.1) hexec.2
    | cons c rest => simp [rowCount]
  have hev : ∀ e, evaluateGenerated env w plan.joinSchema e
      (plan.joinSchema.map fun c => part.map fun row => (storedCell m row c.name).getD (.time 0)) =
      (fun e batch => ((env.refs e).mapM (columnNamed plan.joinSchema batch)).bind (w.meaning e part.length)) e
        (plan.joinSchema.map fun c => part.map fun row => (storedCell m row c.name).getD (.time 0)) := by
    intro e
    rw [evaluateGenerated, hcount]
    rfl
  rw [List.map_map]
  change ReturnsPart _ _ _ _ _ (finish _ _ (plan.joinSchema.map fun c => part.map fun row => (storedCell m row c.name).getD (.time 0)))
  rw [finish_congr (evaluate' := fun e batch => ((env.refs e).mapM (columnNamed plan.joinSchema batch)).bind (w.meaning e part.length)) hev, hc40]
  have hexp : ∀ i ∈ projection, expected m (fun e f => ((env.refs e).mapM f).bind (w.meaning e part.length))
      (fun name => part.map fun row => (storedCell m row name).getD (.time 0)) i = part.mapM fun row => tableCell env.refs m value row i := by
    obtain ⟨fallback, fields, _, hjoin, hcols, _, _⟩ := planScan_ok hplan
    obtain ⟨t, ht, _⟩ := addSources_prefix (w.hashOrder (sourcesOf m projection)) projection
    rw [ht] at hjoin hcols
    have hlen : plan.order.length = plan.joinSchema.length := by
      simp only [Plan.executable, Bool.and_eq_true, decide_eq_true_eq] at hexec
      exact hexec.1
    have hgf : GeneratedFieldsIn m (projection ++ t) := (planColumns_length hcols).2 (by rw [hlen, hjoin])
    obtain ⟨_, hvalid, hconv⟩ := planColumns_generate hgf hcols
    intro i hi
    have hi' : i ∈ projection ++ t := List.mem_append_left _ hi
    obtain ⟨c, gen, hq, hg⟩ := hvalid i hi'
    cases gen with
    | none =>
      have hmem : c.name ∈ plan.joinSchema.map (·.name) := by
        rw [hjoin, joinSchema_eq hvalid]
        refine List.mem_map_of_mem (List.mem_filterMap.mpr ⟨i, List.mem_filter.mpr ⟨hi', ?_⟩, hq⟩)
        simp [isGen, hg]
      simp only [expected, tableCell, hg, hq]
      rw [mapM_some_of_isSome (.time 0) fun row hr => hsome row hr _ hmem]
    | some g =>
      obtain ⟨_, hin⟩ := convertible_iff.mp (hconv i g hi' hg)
      simp only [expected, tableCell, hg, hq]
      rw [mapM_some_of_isSome [] (fun _ _ => rfl)]
      have hr := hrow g.expr (part.map fun row name => (storedCell m row name).getD (.time 0))
      simp only [List.map_map] at hr
      rw [List.length_map] at hr
      show w.meaning g.expr _ _ = _
      refine Eq.trans hr ?_
      clear hr hc40 hev hcount
      induction part with
      | nil => rfl
      | cons row part ih =>
        rw [List.map_cons, List.mapM_cons, List.mapM_cons, ih (fun r hr => hsome r (List.mem_cons_of_mem _ hr)),
          mapM_some_of_isSome (.time 0) fun n hn => hsome row (by simp) n (hin n hn)]
        rfl
  cases hres : projection.mapM (expected m (fun e f => ((env.refs e).mapM f).bind (w.meaning e part.length))
      fun name => part.map fun row => (storedCell m row name).getD (.time 0)) with
  | none =>
    obtain ⟨i, hi, hnone⟩ := mapM_none hres
    rw [hexp i hi] at hnone
    obtain ⟨row, hr, hcell⟩ := mapM_none hnone
    exact Or.inr ⟨rfl, row, hr, i, hi, hcell⟩
  | some columns =>
    refine Or.inl ⟨columns, rfl, ?_⟩
    have hcols := mapM_option_eq_some.mp hres
    have hcol : ∀ (j : Nat) (hj : j < projection.length) (hj' : j < columns.length),
        (part.map fun row => tableCell env.refs m value row projection[j]) = columns[j].map some := by
      intro j hj hj'
      have h1 := congrArg (fun l => l[j]?) hcols
      simp only [List.getElem?_map, List.getElem?_eq_getElem hj, List.getElem?_eq_getElem hj', Option.map_some, Option.some.injEq] at h1
      rw [hexp _ (List.getElem_mem hj)] at h1
      exact mapM_option_eq_some.mp h1
    have hlen : columns.length = projection.length := by simpa using (congrArg List.length hcols).symm
    have hlens : ∀ c ∈ columns, c.length = part.length := by
      intro c hc
      obtain ⟨j, hj, rfl⟩ := List.getElem_of_mem hc
      simpa using (congrArg List.length (hcol j (by omega) hj)).symm
    rw [rowsOfColumns_eq (by intro h; rw [h] at hlen; exact hne (List.length_eq_zero_iff.mp hlen.symm)) hlens]
    refine List.ext_getElem (by simp) fun i hi hi' => ?_
    have hip : i < part.length := by simpa using hi'
    simp only [List.getElem_map, List.getElem_range]
    refine List.ext_getElem (by simp [hlen]) fun j hj hj' => ?_
    have hjc : j < columns.length := by simpa using hj
    simp only [List.getElem_map]
    have := congrArg (fun l => l[i]?) (hcol j (by omega) hjc)
    simp only [List.getElem?_map, List.getElem?_eq_getElem hip, Option.map_some] at this
    rw [List.getElem?_eq_getElem (by rw [hlens _ (List.getElem_mem hjc)]; exact hip)] at this ⊢
    simpa using this.symm

end ModelarDB.Lemmas.GeneratedRows
