import Verif.Lemmas.CreateTable
import Verif.Lemmas.DataFolder
import Verif.Lemmas.QueryFilter
import Verif.Lemmas.Float
/-
Lemmas about the semantic checks of CREATE TIME SERIES TABLE, for C75.
-/
namespace ModelarDB.Lemmas.CreateTable
open Model Model.Statements Model.TableDefinition Model.CreateTable Spec

variable {ε : Type} {sql : Sql ε}

theorem mapM_ok_iff {τ σ : Type} (f : τ → Except Failure σ) : ∀ (l : List τ) (r : List σ),
    l.mapM f = .ok r ↔ List.Forall₂ (fun x y => f x = .ok y) l r
  | [], r => by
    rw [List.mapM_nil, List.forall₂_nil_left_iff]
    constructor
    · intro h
      injection h with h
      exact h.symm
    · rintro rfl
      rfl
  | x :: l, r => by
    rw [List.mapM_cons, List.forall₂_cons_left_iff]
    constructor
    · intro h
      cases hx : f x with
      | error e => rw [hx] at h; cases h
      | ok y =>
        rw [hx] at h
        cases hl : l.mapM f with
        | error e => rw [hl] at h; cases h
        | ok r' =>
          rw [hl] at h
          injection h with h
          exact ⟨y, r', rfl, (mapM_ok_iff f l r').mp hl, h.symm⟩
    · rintro ⟨y, r', hx, hl, rfl⟩
      rw [hx, (mapM_ok_iff f l r').mpr hl]
      rfl

theorem mapM_some_iff {τ σ : Type} (f : τ → Option σ) : ∀ (l : List τ) (r : List σ),
    l.mapM f = some r ↔ List.Forall₂ (fun x y => f x = some y) l r
  | [], r => by
    rw [List.mapM_nil, List.forall₂_nil_left_iff]
    constructor
    · intro h
      injection h with h
      exact h.symm
    · rintro rfl
      rfl
  | x :: l, r => by
    rw [List.mapM_cons, List.forall₂_cons_left_iff]
    constructor
    · intro h
      cases hx : f x with
      | none => rw [hx] at h; cases h
      | some y =>
        rw [hx] at h
        cases hl : l.mapM f with
        | none => rw [hl] at h; cases h
        | some r' =>
          rw [hl] at h
          injection h with h
          exact ⟨y, r', rfl, (mapM_some_iff f l r').mp hl, h.symm⟩
    · rintro ⟨y, r', hx, hl, rfl⟩
      rw [hx, (mapM_some_iff f l r').mpr hl]
      rfl

/-! ### Error bounds -/

theorem ofDigits_nonneg (n : Nat) (e : Int) : (0 : ℚ) ≤ (n : ℚ) * pow10 e := by
  refine mul_nonneg (by positivity) ?_
  unfold pow10
  split
  · positivity
  · rw [Rat.mkRat_eq_div]
    positivity

theorem decimal_nonneg {text : List Char} {q : ℚ} (h : decimal text = some q) : 0 ≤ q := by
  unfold decimal at h
  simp only at h
  split at h
  · cases h
  · rw [Option.map_eq_some_iff] at h
    obtain ⟨e, -, rfl⟩ := h
    exact ofDigits_nonneg _ _

theorem decimal_inf : decimal "inf".toList = none := by decide +kernel

theorem parseF32_decimal {text : List Char} {v : FVal} (h : parseF32 text = some v) :
    (v = .inf false ∧ decimal text = none) ∨ ∃ q, 0 ≤ q ∧ decimal text = some q ∧ v = FVal.round f32Fmt false q := by
  unfold parseF32 at h
  split at h
  · rename_i ht
    injection h with h
    exact .inl ⟨h.symm, by rw [ht]; exact decimal_inf⟩
  · rw [Option.map_eq_some_iff] at h
    obtain ⟨q, hq, rfl⟩ := h
    exact .inr ⟨q, decimal_nonneg hq, hq, rfl⟩

theorem parseF32_of_decimal {text : List Char} {q : ℚ} (h : decimal text = some q) : parseF32 text = some (FVal.round f32Fmt false q) := by
  unfold parseF32
  rw [if_neg, h]
  · rfl
  · rintro rfl
    rw [decimal_inf] at h
    cases h

theorem round_nonneg {q : ℚ} (hq : 0 ≤ q) : FVal.round f32Fmt false q = .inf false ∨ ∃ r, 0 ≤ r ∧ FVal.round f32Fmt false q = .fin false r := by
  unfold FVal.round
  simp only
  split
  · exact .inl rfl
  · exact .inr ⟨_, roundMag_nonneg hq, rfl⟩

theorem lt_round {q : ℚ} (hq : 0 ≤ q) :
    (FVal.fin false 0).lt (FVal.round f32Fmt false q) = true ↔ FVal.round f32Fmt false q ≠ .fin false 0 := by
  rcases round_nonneg hq with h | ⟨r, hr, h⟩
  · rw [h]
    simp [FVal.lt]
  · rw [h]
    simp only [FVal.lt, FVal.signed, Bool.false_eq_true, if_false, decide_eq_true_eq, ne_eq, FVal.fin.injEq, true_and]
    constructor
    · intro h
      exact h.ne'
    · intro h
      exact lt_of_le_of_ne hr (Ne.symm h)

theorem bound_meaningful {q : ℚ} (hq : 0 ≤ q) (percentage : Bool) (b : ErrorBound) :
    (if percentage then ErrorBound.tryNewRelative (FVal.round f32Fmt false q) else ErrorBound.tryNewAbsolute (FVal.round f32Fmt false q)) =
        some b ↔
      b = (if percentage then .relative (FVal.round f32Fmt false q) else .absolute (FVal.round f32Fmt false q)) ∧ Meaningful b := by
  constructor
  · intro h
    rcases round_nonneg hq with h' | ⟨r, hr, h'⟩
    · rw [h'] at h
      cases percentage <;> simp [ErrorBound.tryNewAbsolute, ErrorBound.tryNewRelative, FVal.isFinite, FVal.lt, FVal.le, FVal.eq] at h
    · rw [h'] at h ⊢
      cases percentage with
      | false =>
        simp only [Bool.false_eq_true, if_false, ErrorBound.tryNewAbsolute] at h ⊢
        split at h
        · cases h
        · rename_i hc
          injection h with h
          subst h
          refine ⟨rfl, r, rfl, ?_⟩
          by_contra hn
          apply hc
          have : r = 0 := le_antisymm (not_lt.mp hn) hr
          subst this
          simp [FVal.le, FVal.eq]
      | true =>
        simp only [if_true, ErrorBound.tryNewRelative] at h ⊢
        split at h
        · cases h
        · rename_i hc
          injection h with h
          subst h
          refine ⟨rfl, r, rfl, ?_⟩
          simp only [FVal.le, FVal.lt, FVal.eq, FVal.signed, Bool.not_eq_true', Bool.not_eq_false, Bool.and_eq_true, Bool.or_eq_true,
            decide_eq_true_eq, Bool.false_eq_true, if_false] at hc
          exact ⟨hc.1, le_of_lt_or_eq hc.2⟩
  · rintro ⟨rfl, hm⟩
    cases percentage with
    | false => exact (meaningful_absolute hm).2
    | true => exact (meaningful_relative hm).2

/-- The error bound of a column that is parsed is the one that is declared. -/
theorem optionBound_iff (law : Lawful sql) {k : Kind ε} {t : SqlType} {os : List (ColumnOption ε)} (h : kindDef sql k = some (t, os))
    (b : ErrorBound) : optionBound .lossless os = .ok b ↔ k.Bound b ∧ Meaningful b := by
  have hlossless : ∀ b : ErrorBound, (Except.ok ErrorBound.lossless : Except Failure ErrorBound) = .ok b ↔ b = .lossless ∧ Meaningful b := by
    intro b
    constructor
    · intro h
      injection h with h
      subst h
      exact ⟨rfl, trivial⟩
    · rintro ⟨rfl, -⟩
      rfl
  cases k with
  | bounded number percentage =>
    simp only [kindDef, Option.map_eq_some_iff, Prod.mk.injEq] at h
    obtain ⟨v, hv, rfl, rfl⟩ := h
    have hd := law.display _ _ hv
    rcases parseF32_decimal hv with ⟨rfl, hn⟩ | ⟨q, hq, hn, rfl⟩
    · have h1 : (FVal.fin false 0).lt (.inf false) = true := by rfl
      rw [if_pos h1]
      simp only [optionBound, tokensToBound, hd, Kind.Bound, hn, reduceCtorEq, false_and, exists_false, iff_false]
      cases percentage <;> simp [ErrorBound.tryNewAbsolute, ErrorBound.tryNewRelative, FVal.isFinite, FVal.lt, FVal.le, FVal.eq]
    · have hex : (Kind.bounded number percentage : Kind ε).Bound b ↔
          (FVal.round f32Fmt false q = .fin false 0 ∧ b = .lossless ∨
            FVal.round f32Fmt false q ≠ .fin false 0 ∧
              b = if percentage then .relative (FVal.round f32Fmt false q) else .absolute (FVal.round f32Fmt false q)) := by
        simp only [Kind.Bound, hn, Option.some.injEq]
        constructor
        · rintro ⟨q', rfl, h⟩
          exact h
        · intro h
          exact ⟨q, rfl, h⟩
      rw [hex]
      by_cases hz : FVal.round f32Fmt false q = .fin false 0
      · have h1 : (FVal.fin false 0).lt (FVal.round f32Fmt false q) = false := by rw [hz]; decide +kernel
        rw [h1]
        simp only [Bool.false_eq_true, if_false, optionBound, hlossless]
        simp [hz]
      · rw [if_pos ((lt_round hq).mpr hz)]
        simp only [optionBound, tokensToBound, hd]
        have hb := bound_meaningful hq percentage b
        constructor
        · intro h
          split at h
          · rename_i b' hb'
            injection h with h
            subst h
            obtain ⟨e, hm⟩ := hb.mp hb'
            exact ⟨.inr ⟨hz, e⟩, hm⟩
          · cases h
        · rintro ⟨h | h, hm⟩
          · exact absurd h.1 hz
          · rw [hb.mpr ⟨h.2, hm⟩]
  | timestamp =>
    simp only [kindDef, Option.some.injEq, Prod.mk.injEq] at h
    obtain ⟨rfl, rfl⟩ := h
    exact hlossless b
  | tag =>
    simp only [kindDef, Option.some.injEq, Prod.mk.injEq] at h
    obtain ⟨rfl, rfl⟩ := h
    exact hlossless b
  | field =>
    simp only [kindDef, Option.some.injEq, Prod.mk.injEq] at h
    obtain ⟨rfl, rfl⟩ := h
    exact hlossless b
  | computed text e =>
    simp only [kindDef, Option.some.injEq, Prod.mk.injEq] at h
    obtain ⟨rfl, rfl⟩ := h
    exact hlossless b

/-! ### The schema -/

theorem kindDef_type {k : Kind ε} {t : SqlType} {os : List (ColumnOption ε)} (h : kindDef sql k = some (t, os)) : t.dataType = k.type := by
  cases k with
  | bounded number percentage =>
    simp only [kindDef, Option.map_eq_some_iff, Prod.mk.injEq] at h
    obtain ⟨v, hv, rfl, rfl⟩ := h
    rfl
  | _ =>
    simp only [kindDef, Option.some.injEq, Prod.mk.injEq] at h
    obtain ⟨rfl, rfl⟩ := h
    rfl

theorem schemaColumn_ok (law : Lawful sql) {c : DeclaredColumn ε} {d : ColumnDef ε} (h : columnDef sql c = some d) :
    schemaColumn sql d = .ok (c.column sql) := by
  simp only [columnDef, Option.map_eq_some_iff] at h
  obtain ⟨⟨t, os⟩, hk, rfl⟩ := h
  have ht := kindDef_type hk
  obtain ⟨name, kind⟩ := c
  simp only at hk ht
  unfold schemaColumn DeclaredColumn.column
  cases t with
  | real =>
    have hc : checkOptions os = .ok () := by
      cases kind with
      | bounded number percentage =>
        simp only [kindDef, Option.map_eq_some_iff, Prod.mk.injEq] at hk
        obtain ⟨v, hv, -, rfl⟩ := hk
        split
        · simp [checkOptions, tokensToBound, law.display _ _ hv]
        · rfl
      | _ =>
        simp only [kindDef, Option.some.injEq, Prod.mk.injEq] at hk
        obtain ⟨-, rfl⟩ := hk
        rfl
    simp only [hc, ← ht]
    rfl
  | timestamp => simp [← ht]
  | text => simp [← ht]

theorem querySchema_ok (law : Lawful sql) {cs : List (DeclaredColumn ε)} {ds : List (ColumnDef ε)}
    (h : List.Forall₂ (fun c d => columnDef sql c = some d) cs ds) :
    querySchema sql ds = .ok (cs.map (DeclaredColumn.column sql)) := by
  unfold querySchema
  rw [mapM_ok_iff]
  induction h with
  | nil => exact .nil
  | cons hc _ ih => exact .cons (schemaColumn_ok law hc) ih

/-- The columns as the expressions see them if only ASCII letters occur. -/
def builtColumns (sql : Sql ε) (cs : List (DeclaredColumn ε)) : List Column :=
  cs.map fun c => ⟨String.ofList (sql.lower c.name), c.kind.type, true⟩

theorem builtSchema_ok (law : Lawful sql) {cs : List (DeclaredColumn ε)} (hascii : ∀ c ∈ cs, ∀ x ∈ c.name, x.val < 128)
    {ds : List (ColumnDef ε)} (h : List.Forall₂ (fun c d => columnDef sql c = some d) cs ds) :
    builtSchema ds = builtColumns sql cs := by
  induction h with
  | nil => rfl
  | @cons c d cs ds hc _ ih =>
    have ih := ih fun c hc => hascii c (List.mem_cons_of_mem _ hc)
    unfold builtSchema builtColumns at ih ⊢
    rw [List.map_cons, List.map_cons, ih]
    simp only [columnDef, Option.map_eq_some_iff] at hc
    obtain ⟨⟨t, os⟩, hk, rfl⟩ := hc
    rw [law.lower c.name (hascii c List.mem_cons_self), kindDef_type hk]

theorem names_built (cs : List (DeclaredColumn ε)) :
    (builtColumns sql cs).map (·.name) = (cs.map (DeclaredColumn.column sql)).map (·.name) := by
  unfold builtColumns
  rw [List.map_map, List.map_map]
  rfl

theorem unique_built (cs : List (DeclaredColumn ε)) :
    uniqueNames (builtColumns sql cs) = true ↔ (cs.map fun c => sql.lower c.name).Nodup := by
  unfold uniqueNames builtColumns
  rw [List.map_map, decide_eq_true_iff]
  have : (cs.map ((fun c : Column => c.name) ∘ fun c => (⟨String.ofList (sql.lower c.name), c.kind.type, true⟩ : Column))) =
      (cs.map fun c => sql.lower c.name).map String.ofList := by
    rw [List.map_map]
    rfl
  rw [this]
  exact List.nodup_map_iff (fun a b h => String.ofList_injective h)

theorem indexOf_congr : ∀ {s s' : List Column}, s.map (·.name) = s'.map (·.name) → ∀ n, indexOf s n = indexOf s' n
  | [], [], _, _ => rfl
  | [], _ :: _, h, _ => by simp at h
  | _ :: _, [], h, _ => by simp at h
  | c :: s, c' :: s', h, n => by
    simp only [List.map_cons, List.cons.injEq] at h
    have ih := indexOf_congr h.2 n
    unfold indexOf at ih ⊢
    rw [List.findIdx?_cons, List.findIdx?_cons, ih, h.1]

theorem indexOf_iff {s : List Column} (hn : (s.map (·.name)).Nodup) (n : String) (i : Nat) :
    indexOf s n = some i ↔ ∃ c, s[i]? = some c ∧ c.name = n := by
  constructor
  · intro h
    unfold indexOf at h
    rw [List.findIdx?_eq_some_iff_getElem] at h
    obtain ⟨hi, hc, -⟩ := h
    exact ⟨_, List.getElem?_eq_getElem hi, by simpa using hc⟩
  · rintro ⟨c, hc, rfl⟩
    exact indexOf_nodup hn hc

/-! ### Expressions -/

theorem tryFromExpr_iff (env : Env ε) (schema : List Column) (e : ε) (g : Generated ε) :
    tryFromExpr env schema e = .ok g ↔ g.expr = e ∧ List.Forall₂ (fun r i => indexOf schema r = some i) (env.refs e) g.sources := by
  unfold tryFromExpr
  cases hm : (env.refs e).mapM (indexOf schema) with
  | none =>
    simp only [reduceCtorEq, false_iff, not_and]
    intro _ h
    rw [(mapM_some_iff _ _ _).mpr h] at hm
    cases hm
  | some sources =>
    constructor
    · intro h
      injection h with h
      subst h
      exact ⟨rfl, (mapM_some_iff _ _ _).mp hm⟩
    · rintro ⟨rfl, h⟩
      rw [(mapM_some_iff _ _ _).mpr h] at hm
      injection hm with hm
      rw [← hm]

/-- The expression of a column that is parsed is the one that is declared. -/
theorem optionGenerated_iff {k : Kind ε} {t : SqlType} {os : List (ColumnOption ε)} (h : kindDef sql k = some (t, os)) {schema built : List Column}
    (hnames : built.map (·.name) = schema.map (·.name)) (hn : (schema.map (·.name)).Nodup) (g : Option (Generated ε)) :
    optionGenerated sql built none os = .ok g ↔ k.Computes sql schema g ∧ ∀ text e, k = .computed text e → sql.physical built e = true := by
  have hnone : ∀ g : Option (Generated ε), (Except.ok none : Except Failure (Option (Generated ε))) = .ok g ↔ g = none := by
    intro g
    constructor
    · intro h
      injection h with h
      exact h.symm
    · rintro rfl
      rfl
  cases k with
  | computed text e =>
    simp only [kindDef, Option.some.injEq, Prod.mk.injEq] at h
    obtain ⟨rfl, rfl⟩ := h
    have hrefs : ∀ r i, indexOf built r = some i ↔ ∃ c, schema[i]? = some c ∧ c.name = r := by
      intro r i
      rw [indexOf_congr hnames, indexOf_iff hn]
    have hf : ∀ is, List.Forall₂ (fun r i => indexOf built r = some i) (sql.refs e) is ↔
        List.Forall₂ (fun (r : String) (i : Nat) => ∃ c, schema[i]? = some c ∧ c.name = r) (sql.refs e) is := by
      intro is
      simp only [hrefs]
    unfold optionGenerated
    by_cases hall : ((sql.refs e).all fun r => (indexOf built r).isSome) = true
    · simp only [hall, Bool.not_true, Bool.false_eq_true, if_false]
      by_cases hp : sql.physical built e = true
      · simp only [hp, Bool.not_true, Bool.false_eq_true, if_false]
        have hright : (∀ text' e', Kind.computed text e = Kind.computed text' e' → sql.physical built e' = true) := by
          intro text' e' h
          injection h with _ h
          rw [← h]
          exact hp
        simp only [Kind.Computes]
        constructor
        · intro h
          split at h
          · rename_i g' hg
            rw [optionGenerated] at h
            injection h with h
            obtain ⟨h1, h2⟩ := (tryFromExpr_iff _ _ _ _).mp hg
            exact ⟨⟨g', h.symm, h1, (hf _).mp h2⟩, hright⟩
          · cases h
        · rintro ⟨⟨g', rfl, h1, h2⟩, -⟩
          rw [(tryFromExpr_iff sql.env built e g').mpr ⟨h1, (hf _).mpr h2⟩]
          rfl
      · rw [Bool.not_eq_true] at hp
        simp only [hp, Bool.not_false, if_true, reduceCtorEq, false_iff, not_and]
        intro _ h
        have := h text e rfl
        rw [hp] at this
        cases this
    · rw [Bool.not_eq_true] at hall
      simp only [hall, Bool.not_false, if_true, reduceCtorEq, false_iff, not_and]
      rintro ⟨g', -, -, h2⟩ _
      have h2 := (hf _).mpr h2
      rw [← Bool.not_eq_true, List.all_eq_true] at hall
      apply hall
      intro r hr
      obtain ⟨j, hj, rfl⟩ := List.mem_iff_getElem.mp hr
      have hl := h2.length_eq
      have := List.Forall₂.get h2 hj (by rw [← hl]; exact hj)
      simp only [List.get_eq_getElem] at this
      rw [this]
      rfl
  | bounded number percentage =>
    simp only [kindDef, Option.map_eq_some_iff, Prod.mk.injEq] at h
    obtain ⟨v, hv, rfl, rfl⟩ := h
    have : optionGenerated sql built none (if (FVal.fin false 0).lt v then [.dialect [.number (sql.display v) percentage]] else []) = .ok none := by
      split <;> rfl
    rw [this, hnone]
    simp [Kind.Computes]
  | _ =>
    simp only [kindDef, Option.some.injEq, Prod.mk.injEq] at h
    obtain ⟨rfl, rfl⟩ := h
    simp only [optionGenerated, hnone, Kind.Computes, reduceCtorEq, false_implies, implies_true, and_true]

/-! ### The definition -/

theorem Computes.isNone {k : Kind ε} {schema : List Column} {g : Option (Generated ε)} (h : k.Computes sql schema g) : g.isNone = k.stored := by
  cases k with
  | computed text e =>
    obtain ⟨g', rfl, -⟩ := h
    rfl
  | _ =>
    simp only [Kind.Computes] at h
    subst h
    rfl

/-- The stored columns are those that are not computed. -/
theorem withoutGenerated_columns (schema : List Column) : ∀ (i : Nat) (cs : List (DeclaredColumn ε)) (bs : List ErrorBound)
    (gs : List (Option (Generated ε))), List.Forall₂ (fun c g => c.kind.Computes sql schema g) cs gs → cs.length = bs.length →
    (withoutGenerated i (cs.map (DeclaredColumn.column sql)) bs gs).1 =
      (cs.filter fun c => c.kind.stored).map (DeclaredColumn.column sql)
  | _, [], _, _, _, _ => by simp [withoutGenerated]
  | _, _ :: _, [], _, _, h => by simp at h
  | i, c :: cs, b :: bs, gs, h, hl => by
    obtain ⟨g, gs', hg, hgs, rfl⟩ := List.forall₂_cons_left_iff.mp h
    have ih := withoutGenerated_columns schema (i + 1) cs bs gs' hgs (by simpa using hl)
    simp only [List.map_cons, withoutGenerated]
    rw [Computes.isNone hg, List.filter_cons]
    split
    · simp [ih]
    · exact ih

theorem indicesOfType_length (t : DataType) (schema : List Column) :
    (indicesOfType schema t).length = schema.countP fun c => decide (c.type = t) := by
  unfold indicesOfType
  rw [← List.countP_eq_length_filter]
  induction schema using List.reverseRecOn with
  | nil => rfl
  | append_singleton l c ih =>
    rw [List.length_append, List.length_singleton, List.range_succ, List.countP_append, List.countP_append, ← ih]
    congr 1
    · apply List.countP_congr
      intro i hi
      rw [List.getElem?_append_left (List.mem_range.mp hi)]
    · simp [List.countP_cons]

theorem timestamp_stored (k : Kind ε) (h : k.type = .timestamp) : k.stored = true := by
  cases k <;> first | rfl | cases h

theorem countP_stored (cs : List (DeclaredColumn ε)) :
    ((cs.filter fun c => c.kind.stored).map (DeclaredColumn.column sql)).countP (fun c => decide (c.type = .timestamp)) =
      cs.countP fun c => decide (c.kind.type = .timestamp) := by
  rw [List.countP_map, List.countP_filter]
  apply List.countP_congr
  intro c _
  simp only [Function.comp, DeclaredColumn.column, Bool.and_eq_true, decide_eq_true_eq]
  exact ⟨fun h => of_decide_eq_true h.1, fun h => ⟨decide_eq_true h, timestamp_stored _ h⟩⟩

/-- When a table is accepted and what its definition is. -/
theorem tryNew_iff {cs : List (DeclaredColumn ε)} {bs : List ErrorBound} {gs : List (Option (Generated ε))} {schema : List Column}
    (hs : schema = cs.map (DeclaredColumn.column sql)) (hn : (schema.map (·.name)).Nodup) (hb : cs.length = bs.length)
    (hg : List.Forall₂ (fun c g => c.kind.Computes sql schema g) cs gs) (name : String) :
    (∃ m, tryNew name schema bs gs = .ok m) ↔
      cs.length ≤ 32767 ∧ (cs.countP fun c => decide (c.kind.type = .timestamp)) = 1 ∧ (∃ c ∈ cs, c.kind.type = .value ∧ c.kind.stored = true) ∧
      ∀ c ∈ cs, ∀ text e, c.kind = .computed text e →
        ∀ r ∈ sql.refs e, ∃ c' ∈ cs, String.ofList (sql.lower c'.name) = r ∧ c'.kind.stored = true := by
  have hlen : schema.length = cs.length := by rw [hs, List.length_map]
  have hcols := withoutGenerated_columns schema 0 cs bs gs hg hb
  rw [← hs] at hcols
  have hcheck : checkGenerated gs gs = .ok () ↔ ∀ c ∈ cs, ∀ text e, c.kind = .computed text e →
        ∀ r ∈ sql.refs e, ∃ c' ∈ cs, String.ofList (sql.lower c'.name) = r ∧ c'.kind.stored = true := by
    rw [checkGenerated_ok]
    have hget : ∀ (i : Nat) (c : DeclaredColumn ε), cs[i]? = some c → ∃ g, gs[i]? = some g ∧ c.kind.Computes sql schema g := by
      intro i c hc
      obtain ⟨hi, rfl⟩ := List.getElem?_eq_some_iff.mp hc
      have hi' : i < gs.length := by rw [← hg.length_eq]; exact hi
      exact ⟨_, List.getElem?_eq_getElem hi', List.Forall₂.get hg hi hi'⟩
    have hcol : ∀ (i : Nat) (c : Column), schema[i]? = some c → ∃ c', cs[i]? = some c' ∧ c = c'.column sql := by
      intro i c hc
      rw [hs, List.getElem?_map, Option.map_eq_some_iff] at hc
      obtain ⟨c', h1, h2⟩ := hc
      exact ⟨c', h1, h2.symm⟩
    constructor
    · intro h c hc text e hk r hr
      obtain ⟨i, hi⟩ := List.mem_iff_getElem?.mp hc
      obtain ⟨g, hgi, hcomp⟩ := hget i c hi
      rw [hk] at hcomp
      obtain ⟨g', rfl, rfl, hf⟩ := hcomp
      obtain ⟨j, hj, rfl⟩ := List.mem_iff_getElem.mp hr
      have hj' : j < g'.sources.length := by rw [← hf.length_eq]; exact hj
      obtain ⟨col, hcol1, hcol2⟩ := List.Forall₂.get hf hj hj'
      simp only [List.get_eq_getElem] at hcol1 hcol2
      obtain ⟨c', hc', rfl⟩ := hcol _ _ hcol1
      obtain ⟨g'', hg'', hcomp'⟩ := hget _ _ hc'
      have := h g' (List.mem_of_getElem? hgi) _ (List.getElem_mem hj')
      rw [hg''] at this
      injection this with this
      subst this
      refine ⟨c', List.mem_of_getElem? hc', hcol2, ?_⟩
      rw [← Computes.isNone hcomp']
      rfl
    · intro h g hgm s hsm
      obtain ⟨i, hi⟩ := List.mem_iff_getElem?.mp hgm
      have hi' : i < cs.length := by
        rw [hg.length_eq]
        exact (List.getElem?_eq_some_iff.mp hi).1
      obtain ⟨g₁, hg₁, hcomp⟩ := hget i _ (List.getElem?_eq_getElem hi')
      rw [hi] at hg₁
      injection hg₁ with hg₁
      subst hg₁
      cases hk : cs[i].kind with
      | computed text e =>
        rw [hk] at hcomp
        obtain ⟨g', hg', rfl, hf⟩ := hcomp
        injection hg' with hg'
        subst hg'
        obtain ⟨j, hj, rfl⟩ := List.mem_iff_getElem.mp hsm
        have hj' : j < (sql.refs g.expr).length := by rw [hf.length_eq]; exact hj
        obtain ⟨col, hcol1, hcol2⟩ := List.Forall₂.get hf hj' hj
        simp only [List.get_eq_getElem] at hcol1 hcol2
        obtain ⟨c', hc', hstored⟩ := h _ (List.getElem_mem hi') text g.expr hk _ (List.getElem_mem hj')
        obtain ⟨i', hi''⟩ := List.mem_iff_getElem?.mp hc'
        have hsame : schema[i']? = some (c'.column sql) := by rw [hs, List.getElem?_map, hi'']; rfl
        have heq : g.sources[j] = i' := by
          have e1 := (indexOf_iff hn (sql.refs g.expr)[j] g.sources[j]).mpr ⟨col, hcol1, hcol2⟩
          have e2 := (indexOf_iff hn (sql.refs g.expr)[j] i').mpr ⟨_, hsame, hstored.1⟩
          rw [e1] at e2
          injection e2
        rw [heq]
        obtain ⟨g₂, hg₂, hcomp₂⟩ := hget _ _ hi''
        rw [hg₂]
        have := Computes.isNone hcomp₂
        rw [hstored.2] at this
        rw [Option.isNone_iff_eq_none.mp this]
      | _ =>
        rw [hk] at hcomp
        cases hcomp
  have htypes : ∀ c ∈ schema, c.type = .timestamp ∨ c.type = .value ∨ c.type = .string := by
    intro c hc
    rw [hs] at hc
    obtain ⟨c', -, rfl⟩ := List.mem_map.mp hc
    cases hk : c'.kind <;> simp [DeclaredColumn.column, Kind.type, hk]
  have htime : (∃ i, indicesOfType (withoutGenerated 0 schema bs gs).1 .timestamp = [i]) ↔
      (cs.countP fun c => decide (c.kind.type = .timestamp)) = 1 := by
    rw [← List.length_eq_one_iff, indicesOfType_length, hcols, countP_stored]
  have hfield : indicesOfType (withoutGenerated 0 schema bs gs).1 .value ≠ [] ↔ ∃ c ∈ cs, c.kind.type = .value ∧ c.kind.stored = true := by
    rw [hcols, ← List.length_pos_iff, indicesOfType_length, List.countP_pos_iff]
    simp only [List.mem_map, List.mem_filter, decide_eq_true_eq]
    constructor
    · rintro ⟨_, ⟨c, ⟨hc, hst⟩, rfl⟩, ht⟩
      exact ⟨c, hc, ht, hst⟩
    · rintro ⟨c, hc, ht, hst⟩
      exact ⟨_, ⟨c, ⟨hc, hst⟩, rfl⟩, ht⟩
  rw [← hcheck, ← htime, ← hfield]
  constructor
  · rintro ⟨m, hm⟩
    obtain ⟨-, -, h3, h4, -, h6, h7, -⟩ := tryNew_ok.mp hm
    exact ⟨by rw [← hlen]; exact h4, ⟨_, h6⟩, h7, h3⟩
  · rintro ⟨h1, ⟨i, h2⟩, h3, h4⟩
    exact ⟨⟨name, i, indicesOfType (withoutGenerated 0 schema bs gs).1 .value, indicesOfType (withoutGenerated 0 schema bs gs).1 .string,
        (withoutGenerated 0 schema bs gs).2.2, gs, (withoutGenerated 0 schema bs gs).1, schema, (withoutGenerated 0 schema bs gs).2.1,
        compressedSchemaBase ++ (indicesOfType (withoutGenerated 0 schema bs gs).1 .string).filterMap
          fun i => (withoutGenerated 0 schema bs gs).1[i]?⟩,
      tryNew_ok.mpr ⟨by rw [hlen]; exact hb, by rw [hlen]; exact hg.length_eq, h4, by rw [hlen]; exact h1, htypes, h2, h3, rfl⟩⟩

end ModelarDB.Lemmas.CreateTable
