import Verif.Spec.Cluster
import Mathlib.Tactic.Tauto
/-
Lemmas about changes of the tables of one data folder.
-/
namespace ModelarDB.Lemmas.Cluster
open Model.Cluster Spec.Cluster

variable {δ ν : Type} [DecidableEq δ] [DecidableEq ν]

omit [DecidableEq δ] in
theorem lookup_cons (t : Tables δ) (p : String × δ) (n : String) :
    List.lookup n (p :: t) = if n = p.1 then some p.2 else t.lookup n := by
  obtain ⟨k, d⟩ := p
  rw [List.lookup_cons]
  by_cases h : n = k
  · simp [h]
  · have : (n == k) = false := by simpa using h
    rw [this, if_neg h]

omit [DecidableEq δ] in
theorem lookup_append (t s : Tables δ) (n : String) : (t ++ s).lookup n = (t.lookup n).or (s.lookup n) := by
  induction t with
  | nil => simp
  | cons p t ih =>
    rw [List.cons_append, lookup_cons, lookup_cons]
    by_cases h : n = p.1
    · simp [h]
    · simp only [if_neg h, ih]

omit [DecidableEq δ] in
theorem lookup_filter (t : Tables δ) (f : String → Bool) (n : String) :
    (t.filter fun p => f p.1).lookup n = if f n then t.lookup n else none := by
  induction t with
  | nil => simp
  | cons p t ih =>
    rw [List.filter_cons]
    by_cases h : n = p.1
    · subst h
      by_cases hf : f p.1 = true
      · rw [if_pos hf, lookup_cons, if_pos rfl, if_pos hf, lookup_cons, if_pos rfl]
      · rw [if_neg hf, ih, if_neg hf, if_neg hf]
    · rw [lookup_cons, if_neg h, ← ih]
      by_cases hf : f p.1 = true
      · rw [if_pos hf, lookup_cons, if_neg h]
      · rw [if_neg hf]

omit [DecidableEq δ] in
theorem lookup_isSome_of_mem {t : Tables δ} {p : String × δ} (h : p ∈ t) : (t.lookup p.1).isSome = true := by
  induction t with
  | nil => simp at h
  | cons q t ih =>
    rw [lookup_cons]
    by_cases hq : p.1 = q.1
    · simp [hq]
    · rw [if_neg hq]
      rcases List.mem_cons.1 h with rfl | h
      · exact absurd rfl hq
      · exact ih h

omit [DecidableEq δ] in
theorem mem_of_lookup {t : Tables δ} {n : String} {d : δ} (h : t.lookup n = some d) : (n, d) ∈ t := by
  induction t with
  | nil => simp at h
  | cons q t ih =>
    rw [lookup_cons] at h
    by_cases hq : n = q.1
    · rw [if_pos hq] at h
      injection h with h
      subst hq h
      exact List.mem_cons_self ..
    · rw [if_neg hq] at h
      exact List.mem_cons_of_mem _ (ih h)

omit [DecidableEq δ] in
theorem dropAll_lookup (t : Tables δ) (names : List String) (h : (dropAll t names).2 = true) (n : String) :
    (dropAll t names).1.lookup n = if n ∈ names then none else t.lookup n := by
  induction names generalizing t with
  | nil => simp [dropAll]
  | cons name rest ih =>
    rw [dropAll] at h ⊢
    by_cases hs : (t.lookup name).isSome = true
    · rw [if_pos hs] at h ⊢
      rw [ih _ h]
      have := lookup_filter t (fun k => decide (k ≠ name)) n
      rw [this]
      by_cases hn : n = name
      · subst hn; simp
      · by_cases hr : n ∈ rest <;> simp [hn, hr]
    · rw [if_neg hs] at h
      simp at h

omit [DecidableEq δ] in
theorem change_after (t : Tables δ) (c : Change δ) (h : (change t c).2 = true) : After t c (change t c).1 := by
  cases c with
  | create name d =>
    intro n
    rw [change] at h ⊢
    by_cases hs : (t.lookup name).isSome = true
    · rw [if_pos hs] at h; simp at h
    · rw [if_neg hs]
      simp only [Bool.not_eq_true, Option.isSome_eq_false_iff, Option.isNone_iff_eq_none] at hs
      rw [lookup_append, lookup_cons]
      by_cases hn : n = name
      · subst hn; simp [hs]
      · simp [hn]
  | drop names => exact fun n => dropAll_lookup t names h n

omit [DecidableEq δ] in
theorem dropAll_congr (t s : Tables δ) (names : List String) (h : SameTables t s) : (dropAll t names).2 = (dropAll s names).2 := by
  induction names generalizing t s with
  | nil => rfl
  | cons name rest ih =>
    rw [dropAll, dropAll, h name]
    split
    · refine ih _ _ fun n => ?_
      have h1 := lookup_filter t (fun k => decide (k ≠ name)) n
      have h2 := lookup_filter s (fun k => decide (k ≠ name)) n
      rw [h1, h2, h n]
    · rfl

omit [DecidableEq δ] in
theorem change_congr (t s : Tables δ) (c : Change δ) (h : SameTables t s) : (change t c).2 = (change s c).2 := by
  cases c with
  | create name d =>
    rw [change, change, h name]
    split <;> rfl
  | drop names => exact dropAll_congr t s names h

omit [DecidableEq δ] in
theorem After.congr {t t' s s' : Tables δ} {c : Change δ} (ht : After t c t') (hs : After s c s') (h : SameTables t s) : SameTables t' s' := by
  intro n
  cases c with
  | create name d => rw [ht n, hs n, h n]
  | drop names => rw [ht n, hs n, h n]

omit [DecidableEq δ] in
theorem After.again {t t' t'' : Tables δ} {c : Change δ} (ht : After t c t') (ht' : After t' c t'') : SameTables t'' t' := by
  intro n
  cases c with
  | create name d =>
    rw [ht' n, ht n]
    split <;> rfl
  | drop names =>
    rw [ht' n, ht n]
    split <;> rfl

omit [DecidableEq δ] in
theorem After.fails {t t' : Tables δ} {c : Change δ} (hc : NotEmpty c) (ht : After t c t') : (change t' c).2 = false := by
  cases c with
  | create name d =>
    have := ht name
    rw [if_pos rfl] at this
    rw [change, this]
    rfl
  | drop names =>
    cases names with
    | nil => exact absurd rfl hc
    | cons name rest =>
      have := ht name
      rw [if_pos (List.mem_cons_self ..)] at this
      rw [change, dropAll, this]
      rfl

theorem load_same {l r t : Tables δ} (h : load l r = some t) : SameTables t r := by
  rw [load] at h
  split at h
  · rename_i hall
    simp only [Option.some.injEq] at h
    subst h
    intro n
    rw [lookup_append]
    have := lookup_filter r (fun k => (l.lookup k).isNone) n
    rw [this]
    cases hl : l.lookup n with
    | none => simp
    | some d =>
      have := List.all_eq_true.1 hall _ (mem_of_lookup hl)
      simp only [decide_eq_true_eq] at this
      rw [this]
      rfl
  · simp at h

end ModelarDB.Lemmas.Cluster
