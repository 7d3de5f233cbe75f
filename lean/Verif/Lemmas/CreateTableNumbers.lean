import Verif.Lemmas.CreateTableChecks
import Verif.Lemmas.FloatOps
/-
Numbers in statements, for C75.
-/
namespace ModelarDB.Lemmas.CreateTable
open Model Model.CreateTable Spec

theorem takeWhile_digits {digits rest : List Char} (h : ∀ c ∈ digits, c.isDigit = true) (hr : ∀ c ∈ rest.head?, c.isDigit = false) :
    (digits ++ rest).takeWhile Char.isDigit = digits ∧ (digits ++ rest).dropWhile Char.isDigit = rest := by
  rw [List.takeWhile_append_of_pos h, List.dropWhile_append_of_pos h]
  cases rest with
  | nil => simp
  | cons c rest =>
    have := hr c rfl
    simp [this]

theorem pow10_eq (e : Int) : pow10 e = (10 : ℚ) ^ e := by
  unfold pow10
  split
  · rename_i h
    obtain ⟨n, rfl⟩ := Int.eq_ofNat_of_zero_le h
    simp
  · rename_i h
    obtain ⟨n, hn⟩ := Int.eq_ofNat_of_zero_le (show 0 ≤ -e by omega)
    have he : e = -(n : Int) := by omega
    subst he
    simp [Rat.mkRat_eq_div]

/-- The text of an exponent. -/
theorem exponent_text (e : List Char) (n : Int) (h : ExponentText e n) : exponent e = some n := by
  cases h with
  | none => rfl
  | positive letter plus digits hl hp hne hd =>
    have hsign : sign (plus ++ digits) = (false, digits) := by
      rcases hp with rfl | rfl
      · cases digits with
        | nil => exact absurd rfl hne
        | cons c digits =>
          have := hd c List.mem_cons_self
          unfold sign
          split
          · rename_i heq
            simp only [List.nil_append, List.cons.injEq] at heq
            rw [heq.1] at this
            cases this
          · rename_i heq
            simp only [List.nil_append, List.cons.injEq] at heq
            rw [heq.1] at this
            cases this
          · rfl
      · rfl
    simp only [exponent, if_pos hl, hsign, hne, List.all_eq_true.mpr hd, Bool.not_true, Bool.false_eq_true, or_self, if_false]
  | negative letter digits hl hne hd =>
    simp only [exponent, if_pos hl, sign, hne, List.all_eq_true.mpr hd, Bool.not_true, Bool.false_eq_true, or_self, if_false, if_true]

theorem exponent_head {e : List Char} {n : Int} (h : ExponentText e n) : ∀ c ∈ e.head?, c.isDigit = false ∧ c ≠ '.' := by
  intro c hc
  cases h with
  | none => cases hc
  | positive letter plus digits hl hp hne hd =>
    simp only [List.head?_cons, Option.mem_def, Option.some.injEq] at hc
    subst hc
    rcases hl with rfl | rfl <;> decide
  | negative letter digits hl hne hd =>
    simp only [List.head?_cons, Option.mem_def, Option.some.injEq] at hc
    subst hc
    rcases hl with rfl | rfl <;> decide

theorem decimal_text {text : List Char} {q : ℚ} (h : NumberText text q) : decimal text = some q := by
  obtain ⟨whole, part, dot, e, n, hw, hp, hne, hdot, he, rfl, rfl⟩ := h
  have hhead := exponent_head he
  have hrest : ∀ c ∈ (dot ++ (part ++ e)).head?, c.isDigit = false := by
    intro c hc
    rcases hdot with rfl | ⟨rfl, rfl⟩
    · simp only [List.cons_append, List.head?_cons, Option.mem_def, Option.some.injEq] at hc
      subst hc
      decide
    · exact (hhead c hc).1
  obtain ⟨h1, h2⟩ := takeWhile_digits hw hrest
  have hfrac : fraction (dot ++ (part ++ e)) = (part, e) := by
    rcases hdot with rfl | ⟨rfl, rfl⟩
    · obtain ⟨h3, h4⟩ := takeWhile_digits hp (fun c hc => (hhead c hc).1)
      simp only [List.cons_append, List.nil_append, fraction, h3, h4]
    · simp only [List.nil_append]
      unfold fraction
      split
      · rename_i c
        exact absurd rfl (hhead '.' rfl).2
      · rfl
  unfold decimal
  simp only [List.append_assoc, h1, h2, hfrac]
  rw [if_neg (by rintro ⟨rfl, rfl⟩; exact hne.elim (fun h => h rfl) (fun h => h rfl)), exponent_text e n he, Option.map_some, Option.some.injEq,
    Nat.ofDigitChars_append, Nat.ofDigitChars_eq_ofDigitChars_zero, pow10_eq, zpow_sub₀ (by norm_num)]
  push_cast
  have : (10 : ℚ) ^ part.length ≠ 0 := by positivity
  simp only [zpow_natCast]
  field_simp

end ModelarDB.Lemmas.CreateTable
