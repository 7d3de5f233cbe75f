import Verif.Spec.CApi
import Mathlib.Data.List.Nodup
import Mathlib.Tactic.Tauto
/-
Lemmas on how the functions of the C-API convert their arguments.
-/
namespace ModelarDB.Lemmas.CApi
open Model.CApi Spec.CApi

/-- An argument that can be converted. -/
def ArgFine (c : Call) : Arg → Prop
  | .handle i => ∃ a, c.handles[i]? = some (.address a)
  | .text i => c.texts[i]? = some .valid
  | .maybeText i => c.texts[i]? ≠ some .notUtf8
  | .borrow i => ∃ e, c.exported[i]? = some e ∧ e.valid = true
  | .take i => ∃ e, c.exported[i]? = some e ∧ e.valid = true
  | .check => c.checks = true

/-- The structures that arguments take. -/
def takes (c : Call) (l : List Arg) : List Nat :=
  l.filterMap fun | .take i => (c.exported[i]?).map (·.id) | _ => none

/-- The conversion succeeds if all arguments can be converted. -/
theorem convert_ok (boxes : List (Nat × Kind)) (c : Call) (l : List Arg) (borrowed : List Nat) (h : convert boxes c borrowed l ≠ .undefined) :
    (∀ x ∈ l, ArgFine c x) ∧ convert boxes c borrowed l = .ok (takes c l) ∨
    (¬ ∀ x ∈ l, ArgFine c x) ∧ ∃ taken m, convert boxes c borrowed l = .error taken m ∧ taken.Sublist (takes c l) := by
  induction l generalizing borrowed with
  | nil => left; simp [convert, takes]
  | cons x rest ih =>
    cases x with
    | handle i =>
      rcases hi : c.handles[i]? with _ | p
      · right; simp [convert, hi, ArgFine]
      · cases p with
        | null => right; simp [convert, hi, ArgFine]
        | unaligned => right; simp [convert, hi, ArgFine]
        | address a =>
          simp only [convert, hi] at h ⊢
          split at h
          · rename_i hc
            simp only [hc, and_self, ↓reduceIte, not_false_eq_true]
            have := ih _ h
            simpa [ArgFine, hi, takes] using this
          · exact absurd rfl h
    | text i =>
      rcases hi : c.texts[i]? with _ | p
      · right; simp [convert, hi, ArgFine]
      · cases p with
        | null => right; simp [convert, hi, ArgFine]
        | notUtf8 => right; simp [convert, hi, ArgFine]
        | valid =>
          simp only [convert, hi] at h ⊢
          have := ih _ h
          simpa [ArgFine, hi, takes] using this
    | maybeText i =>
      rcases hi : c.texts[i]? with _ | p
      · simp only [convert, hi] at h ⊢
        have := ih _ h
        simpa [ArgFine, hi, takes] using this
      · cases p with
        | notUtf8 => right; simp [convert, hi, ArgFine]
        | null =>
          simp only [convert, hi] at h ⊢
          have := ih _ h
          simpa [ArgFine, hi, takes] using this
        | valid =>
          simp only [convert, hi] at h ⊢
          have := ih _ h
          simpa [ArgFine, hi, takes] using this
    | borrow i =>
      rcases hi : c.exported[i]? with _ | e
      · simp [convert, hi] at h
      · simp only [convert, hi] at h ⊢
        by_cases hv : e.valid = true
        · simp only [hv, ↓reduceIte] at h ⊢
          have := ih _ h
          simpa [ArgFine, hi, hv, takes] using this
        · right; simp [hv, ArgFine, hi]
    | take i =>
      rcases hi : c.exported[i]? with _ | e
      · simp [convert, hi] at h
      · simp only [convert, hi] at h ⊢
        by_cases hv : e.valid = true
        · simp only [hv, ↓reduceIte] at h ⊢
          have hn : convert boxes c borrowed rest ≠ .undefined := by
            intro hu; rw [hu] at h; exact h rfl
          rcases ih _ hn with ⟨ha, hb⟩ | ⟨ha, taken, m, hb, hs⟩
          · left; rw [hb]; simpa [ArgFine, hi, hv, takes, Converted.add] using ha
          · right; rw [hb]
            refine ⟨by simpa [ArgFine, hi, hv] using ha, e.id :: taken, m, rfl, ?_⟩
            simpa [takes, hi] using hs
        · right; simp [hv, ArgFine, hi, takes]
    | check =>
      by_cases hc : c.checks = true
      · simp only [convert, hc, ↓reduceIte] at h ⊢
        have := ih _ h
        simpa [ArgFine, hc, takes] using this
      · right; simp [convert, hc, ArgFine]

/-- The positions of the pointers to data folders and clients. -/
def positions (l : List Arg) : List Nat := l.filterMap fun | .handle i => some i | _ => none

/-- The conversion is defined if the pointers are. -/
theorem convert_defined (boxes : List (Nat × Kind)) (c : Call) (hn : c.handles.Nodup)
    (hb : ∀ a, .address a ∈ c.handles → (a, kindOf c.dataFolder) ∈ boxes) (l : List Arg) (borrowed : List Nat)
    (hl : (positions l).Nodup) (he : ∀ x ∈ l, ∀ i, x = .borrow i ∨ x = .take i → i < c.exported.length)
    (hx : ∀ i ∈ positions l, ∀ a, c.handles[i]? = some (.address a) → a ∉ borrowed) : convert boxes c borrowed l ≠ .undefined := by
  induction l generalizing borrowed with
  | nil => simp [convert]
  | cons x rest ih =>
    have he' : ∀ x ∈ rest, ∀ i, x = .borrow i ∨ x = .take i → i < c.exported.length := fun x hx => he x (List.mem_cons_of_mem _ hx)
    cases x with
    | handle i =>
      rcases hi : c.handles[i]? with _ | p
      · simp [convert, hi]
      · cases p with
        | null => simp [convert, hi]
        | unaligned => simp [convert, hi]
        | address a =>
          have hp : positions (.handle i :: rest) = i :: positions rest := rfl
          rw [hp] at hl hx
          have ha : a ∉ borrowed := hx i (by simp) a hi
          have hm : (a, kindOf c.dataFolder) ∈ boxes := hb a (List.mem_of_getElem? hi)
          simp only [convert, hi, ha, hm, not_false_eq_true, and_self, ↓reduceIte]
          refine ih _ (List.nodup_cons.mp hl).2 he' ?_
          intro j hj b hjb hmem
          rcases List.mem_cons.mp hmem with rfl | hmem
          · have hij : i = j := (List.getElem?_inj (List.getElem?_eq_some_iff.mp hi).1 hn).mp (hi.trans hjb.symm)
            exact (List.nodup_cons.mp hl).1 (hij ▸ hj)
          · exact hx j (List.mem_cons_of_mem _ hj) b hjb hmem
    | text i =>
      have := ih borrowed hl he' hx
      simp only [convert]; split <;> simp_all
    | maybeText i =>
      have := ih borrowed hl he' hx
      simp only [convert]; split <;> simp_all
    | borrow i =>
      have := ih borrowed hl he' hx
      have hlt := he _ (by simp) i (.inl rfl)
      simp only [convert, List.getElem?_eq_getElem hlt]; split <;> simp_all
    | take i =>
      have := ih borrowed hl he' hx
      have hlt := he _ (by simp) i (.inr rfl)
      simp only [convert, List.getElem?_eq_getElem hlt]
      split
      · cases hc : convert boxes c borrowed rest <;> simp_all [Converted.add]
      · simp
    | check =>
      have := ih borrowed hl he' hx
      simp only [convert]; split <;> simp_all

/-- No function uses the same pointer twice, and all use the structures they are given. -/
theorem args_positions (fn : Fn) : (positions (args fn)).Nodup := by cases fn <;> decide

theorem args_exported (fn : Fn) : ∀ x ∈ args fn, ∀ i, x = .borrow i ∨ x = .take i → i < (signature fn).exported := by
  cases fn <;> simp [args, signature]

/-- All arguments of a function can be converted if and only if the arguments of the call can be used. -/
theorem args_fine (c : Call) (h : WellTyped c) : (∀ x ∈ args c.fn, ArgFine c x) ↔ Fine c := by
  obtain ⟨h1, h2, h3, -⟩ := h
  obtain ⟨fn, d, hs, ts, es, ch, op⟩ := c
  have key : Fine ⟨fn, d, hs, ts, es, ch, op⟩ ↔ (∀ p ∈ hs, ∃ a, p = Ptr.address a) ∧
      (∀ p ∈ (signature fn).texts.zip ts, Usable p.1 p.2) ∧ (∀ e ∈ es, e.valid = true) ∧ (checksValues fn = true → ch = true) :=
    ⟨fun ⟨a, b, c, d⟩ => ⟨a, b, c, d⟩, fun ⟨a, b, c, d⟩ => ⟨a, b, c, d⟩⟩
  rw [key]
  have opt : ∀ t : Text, ¬ t = .notUtf8 ↔ (t = .valid ∨ t = .null) := by intro t; cases t <;> simp
  clear key
  cases fn <;> simp only [signature, List.length_cons, List.length_nil, Nat.zero_add, Nat.reduceAdd] at h1 h2 h3
  all_goals
    rcases hs with _ | ⟨p0, _ | ⟨p1, _ | ⟨p2, hs⟩⟩⟩ <;> simp only [List.length_cons, List.length_nil] at h1 <;> try omega
  all_goals
    rcases ts with _ | ⟨t0, _ | ⟨t1, _ | ⟨t2, _ | ⟨t3, _ | ⟨t4, ts⟩⟩⟩⟩⟩ <;> simp only [List.length_cons, List.length_nil] at h2 <;> try omega
  all_goals
    rcases es with _ | ⟨e0, _ | ⟨e1, _ | ⟨e2, _ | ⟨e3, es⟩⟩⟩⟩ <;> simp only [List.length_cons, List.length_nil] at h3 <;> try omega
  all_goals
    simp [args, ArgFine, Usable, checksValues, signature, opt]
  all_goals tauto

end ModelarDB.Lemmas.CApi
