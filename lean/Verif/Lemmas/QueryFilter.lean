import Verif.Spec.QueryPlan
import Mathlib.Data.List.Basic
import Mathlib.Data.List.Nodup
/-
Lemmas about filters.
-/
namespace ModelarDB.Lemmas
open Model.Query Model.TableDefinition Spec

theorem eval_congr (I : Interpretation) {env env' : String → Value} : ∀ e : Expr, (∀ n ∈ e.refs, env n = env' n) → e.eval I env = e.eval I env'
  | .column n, h => h n (by simp [Expr.refs])
  | .constant _, _ => rfl
  | .other id refs, h => by
    simp only [Expr.eval]
    congr 1
    exact List.map_congr_left h
  | .binary l op r, h => by
    simp only [Expr.eval]
    rw [eval_congr I l fun n hn => h n (by simp [Expr.refs, hn]), eval_congr I r fun n hn => h n (by simp [Expr.refs, hn])]

theorem conj_eq_true {a b : Value} : conjunctionOfValues a b = .bool true ↔ a = .bool true ∧ b = .bool true := by
  unfold conjunctionOfValues
  split
  · simp
  · simp
  · simp
  · rename_i h1 h2 h3
    simp only [reduceCtorEq, false_iff, not_and]
    rintro rfl rfl
    exact h3 rfl rfl

theorem foldl_and_true (I : Interpretation) (env : String → Value) : ∀ (es : List Expr) (e : Expr),
    (es.foldl (fun a b => .binary a .and b) e).eval I env = .bool true ↔ ∀ x ∈ e :: es, x.eval I env = .bool true
  | [], e => by simp
  | x :: es, e => by
    rw [List.foldl_cons, foldl_and_true]
    simp only [List.mem_cons, forall_eq_or_imp, Expr.eval, applyOp, conj_eq_true]
    tauto

theorem keeps_conjunction (I : Interpretation) (env : String → Value) (es : List Expr) :
    Keeps I (conjunction es) env ↔ ∀ x ∈ es, x.eval I env = .bool true := by
  unfold Keeps
  cases es with
  | nil => simp [conjunction]
  | cons e es =>
    simp only [conjunction, Option.some.injEq, forall_eq', foldl_and_true]

theorem foldl_and_refs : ∀ (es : List Expr) (e : Expr), ∀ x ∈ e :: es, ∀ n ∈ x.refs, n ∈ (es.foldl (fun a b => .binary a .and b) e).refs
  | [], e => by simp
  | y :: es, e => by
    intro x hx n hn
    rw [List.foldl_cons]
    simp only [List.mem_cons] at hx
    rcases hx with rfl | rfl | hx
    · exact foldl_and_refs es _ (.binary x .and y) (by simp) n (by simp [Expr.refs, hn])
    · exact foldl_and_refs es _ (.binary e .and x) (by simp) n (by simp [Expr.refs, hn])
    · exact foldl_and_refs es _ x (by simp [hx]) n hn

theorem conjunction_refs {es : List Expr} {e : Expr} (h : conjunction es = some e) : ∀ x ∈ es, ∀ n ∈ x.refs, n ∈ e.refs := by
  cases es with
  | nil => simp
  | cons a es =>
    simp only [conjunction, Option.some.injEq] at h
    subst h
    exact foldl_and_refs es a

theorem rewriteFilters_mem {schema : List Column} : ∀ {filters : List Expr} {rs : List (Expr × Expr)}, rewriteFilters schema filters = .ok rs →
    ∀ p ∈ rs, ∃ f ∈ filters, rewriteFilter schema f = .ok (some p)
  | [], rs, h => by
    simp only [rewriteFilters, Except.ok.injEq] at h
    subst h
    simp
  | f :: fs, rs, h => by
    unfold rewriteFilters at h
    split at h
    · cases h
    · intro p hp
      obtain ⟨g, hg, h'⟩ := rewriteFilters_mem h p hp
      exact ⟨g, List.mem_cons_of_mem _ hg, h'⟩
    · rename_i r hr
      split at h
      · cases h
      · rename_i rest hrest
        simp only [Except.ok.injEq] at h
        subst h
        intro p hp
        rcases List.mem_cons.mp hp with rfl | hp
        · exact ⟨f, by simp, hr⟩
        · obtain ⟨g, hg, h'⟩ := rewriteFilters_mem hrest p hp
          exact ⟨g, List.mem_cons_of_mem _ hg, h'⟩

theorem fieldWithName_isSome {schema : List Column} {name : String} : (fieldWithName schema name).isSome ↔ name ∈ schema.map (·.name) := by
  simp only [fieldWithName, List.find?_isSome, decide_eq_true_eq, List.mem_map]

theorem convertible_iff {schema : List Column} {refs : List String} :
    convertible schema refs = true ↔ (schema.map (·.name)).Nodup ∧ ∀ n ∈ refs, n ∈ schema.map (·.name) := by
  simp only [convertible, uniqueNames, Bool.and_eq_true, decide_eq_true_eq, List.all_eq_true, fieldWithName_isSome]

theorem indexOf_nodup {schema : List Column} (h : (schema.map (·.name)).Nodup) {i : Nat} {c : Column} (hi : schema[i]? = some c) :
    indexOf schema c.name = some i := by
  unfold indexOf
  rw [List.findIdx?_eq_some_iff_getElem]
  obtain ⟨hlt, hget⟩ := List.getElem?_eq_some_iff.mp hi
  refine ⟨hlt, by simp [hget], ?_⟩
  intro j hj
  simp only [decide_eq_true_eq]
  intro he
  have := (List.Nodup.getElem_inj_iff h (i := j) (j := i) (hi := by simp; omega) (hj := by simpa using hlt)).mp (by simp [he, hget])
  omega

theorem lookup_nodup {schema : List Column} (h : (schema.map (·.name)).Nodup) {values : List Value} {i : Nat} {c : Column} {v : Value}
    (hi : schema[i]? = some c) (hv : values[i]? = some v) : lookup schema values c.name = v := by
  unfold lookup
  rw [indexOf_nodup h hi]
  simp [hv]

theorem lookup_tag {base : List Column} {baseValues : List Value} (hbase : base.length = baseValues.length) {tagCols : List Column}
    (h : ((base ++ tagCols).map (·.name)).Nodup) {k : Nat} {c : Column} {tags : List String} {tag : String} (hc : tagCols[k]? = some c)
    (htag : tags[k]? = some tag) : lookup (base ++ tagCols) (baseValues ++ tags.map .text) c.name = .text tag := by
  refine lookup_nodup h (i := base.length + k) ?_ ?_
  · rw [List.getElem?_append_right (by omega)]
    simpa using hc
  · rw [List.getElem?_append_right (by omega), hbase]
    simp [htag]

theorem base_names_disjoint : ∀ n ∈ queryCompressedBase.map (·.name), n ∉ gridBase.map (·.name) := by decide +kernel

/-- What can be used in both rewritten filters is a tag. -/
theorem ref_is_tag {tagCols : List Column} {refs refs' : List String} (h : convertible (queryCompressedBase ++ tagCols) refs = true)
    (h' : convertible (gridBase ++ tagCols) refs' = true) {n : String} (hn : n ∈ refs) (hn' : n ∈ refs') : n ∈ tagCols.map (·.name) := by
  have h1 := (convertible_iff.mp h).2 n hn
  have h2 := (convertible_iff.mp h').2 n hn'
  rw [List.map_append, List.mem_append] at h1 h2
  rcases h1 with h1 | h1
  · rcases h2 with h2 | h2
    · exact absurd h2 (base_names_disjoint n h1)
    · exact h2
  · exact h1

theorem compare_time_true {I : Interpretation} {op : Op} (hop : op = .gt ∨ op = .ge ∨ op = .lt ∨ op = .le ∨ op = .eq) {t : Int} {v : Value} :
    applyOp I op (.time t) v = .bool true ↔ ∃ c, v = .time c ∧ compareTimes op t c = true := by
  rcases hop with rfl | rfl | rfl | rfl | rfl <;> cases v <;> simp [applyOp]

theorem compare_time_true' {I : Interpretation} {op : Op} (hop : op = .gt ∨ op = .ge ∨ op = .lt ∨ op = .le ∨ op = .eq) {t : Int} {v : Value} :
    applyOp I op v (.time t) = .bool true ↔ ∃ c, v = .time c ∧ compareTimes op c t = true := by
  rcases hop with rfl | rfl | rfl | rfl | rfl <;> cases v <;> simp [applyOp]

theorem lookup_start (rest : Nat → Value) (start stop : Int) (tags : List String) (tagCols : List Column) :
    lookup (queryCompressedBase ++ tagCols) (segmentValues rest start stop tags) "start_time" = .time start := by
  rfl

theorem lookup_end (rest : Nat → Value) (start stop : Int) (tags : List String) (tagCols : List Column) :
    lookup (queryCompressedBase ++ tagCols) (segmentValues rest start stop tags) "end_time" = .time stop := by
  rfl

theorem lookup_timestamp (p : Point) (tagCols : List Column) :
    lookup (gridBase ++ tagCols) (pointValues p) "timestamp" = .time p.time := by
  rfl

/-- A filter on the left column. -/
theorem rewriteLeft_keeps {I : Interpretation} {op : Op} {right : Expr} {r : Expr × Expr} (h : rewriteLeft op right = some r)
    {senv penv row : String → Value} {start stop t : Int} (hstart : senv "start_time" = .time start) (hstop : senv "end_time" = .time stop)
    (htime : penv "timestamp" = .time t) (hs : right.eval I senv = right.eval I row) (hp : right.eval I penv = right.eval I row)
    (h1 : start ≤ t) (h2 : t ≤ stop) (hrow : applyOp I op (.time t) (right.eval I row) = .bool true) :
    r.1.eval I senv = .bool true ∧ r.2.eval I penv = .bool true := by
  cases op <;> simp only [rewriteLeft, Option.some.injEq, reduceCtorEq] at h <;> subst h <;>
    simp only [Expr.eval, hstart, hstop, htime, hs, hp] <;> refine ⟨?_, hrow⟩ <;>
    rw [compare_time_true (by simp)] at hrow <;> obtain ⟨c, hc, hcmp⟩ := hrow <;> rw [hc] <;>
    simp only [compareTimes, decide_eq_true_eq] at hcmp <;>
    simp [applyOp, compareTimes, conjunctionOfValues] <;> try omega
  have e1 : decide (start ≤ c) = true := by simp; omega
  have e2 : decide (c ≤ stop) = true := by simp; omega
  rw [e1, e2]

/-- A filter on the right column that is not an equality. -/
theorem rewriteRight_keeps {I : Interpretation} {op : Op} {left right : Expr} {r : Expr × Expr} (h : rewriteRight left op right = some r)
    (hop : op ≠ .eq) {senv penv row : String → Value} {start stop t : Int} (hstart : senv "start_time" = .time start)
    (hstop : senv "end_time" = .time stop) (htime : penv "timestamp" = .time t) (hs : left.eval I senv = left.eval I row)
    (hp : left.eval I penv = left.eval I row) (h1 : start ≤ t) (h2 : t ≤ stop)
    (hrow : applyOp I op (left.eval I row) (.time t) = .bool true) : r.1.eval I senv = .bool true ∧ r.2.eval I penv = .bool true := by
  cases op <;> simp only [rewriteRight, Option.some.injEq, reduceCtorEq] at h <;> try exact absurd rfl hop
  all_goals
    subst h
    simp only [Expr.eval, hstart, hstop, htime, hs, hp]
    refine ⟨?_, hrow⟩
    rw [compare_time_true' (by simp)] at hrow
    obtain ⟨c, hc, hcmp⟩ := hrow
    rw [hc]
    simp only [compareTimes, decide_eq_true_eq] at hcmp
    simp [applyOp, compareTimes]
    omega

end ModelarDB.Lemmas
