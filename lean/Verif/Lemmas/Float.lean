import Verif.Model.Float
import Mathlib.Tactic.Linarith
import Mathlib.Tactic.Positivity
import Mathlib.Tactic.NormNum
import Mathlib.Tactic.FieldSimp
import Mathlib.Tactic.Ring
import Mathlib.Data.Nat.Log
import Mathlib.Algebra.Order.Field.Power
/-
Rounding to nearest even: monotone, exact on representable numbers, error at most half a unit in
the last place.
-/
namespace ModelarDB.Lemmas
open Model

theorem pow2_eq (e : Int) : pow2 e = (2 : ℚ) ^ e := by
  unfold pow2
  split
  · rename_i h
    obtain ⟨n, rfl⟩ := Int.eq_ofNat_of_zero_le h
    simp
  · rename_i h
    obtain ⟨n, hn⟩ := Int.eq_ofNat_of_zero_le (show 0 ≤ -e by omega)
    have : e = -(n : Int) := by omega
    subst this
    simp [Rat.mkRat_eq_div]

theorem pow2_pos (e : Int) : 0 < pow2 e := by rw [pow2_eq]; positivity

theorem pow2_ne (e : Int) : pow2 e ≠ 0 := ne_of_gt (pow2_pos e)

theorem pow2_add (a b : Int) : pow2 (a + b) = pow2 a * pow2 b := by
  simp only [pow2_eq]; exact zpow_add₀ (by norm_num) a b

theorem pow2_le {a b : Int} (h : a ≤ b) : pow2 a ≤ pow2 b := by
  simp only [pow2_eq]; exact zpow_le_zpow_right₀ (by norm_num) h

theorem pow2_lt {a b : Int} (h : a < b) : pow2 a < pow2 b := by
  simp only [pow2_eq]; exact zpow_lt_zpow_right₀ (by norm_num) h

theorem pow2_lt_iff {a b : Int} : pow2 a < pow2 b ↔ a < b := by
  constructor
  · intro h
    by_contra hn
    exact absurd (pow2_le (by omega : b ≤ a)) (not_le.mpr h)
  · exact pow2_lt

theorem pow2_natCast (n : Nat) : pow2 n = 2 ^ n := by rw [pow2_eq]; simp

theorem pow2_zero : pow2 0 = 1 := by rw [pow2_eq]; simp

theorem pow2_succ (e : Int) : pow2 (e + 1) = 2 * pow2 e := by
  rw [pow2_add, mul_comm]; congr 1

theorem ilog2_spec {q : ℚ} (hq : 0 < q) : pow2 (ilog2 q) ≤ q ∧ q < pow2 (ilog2 q + 1) := by
  have hnum : 0 < q.num := Rat.num_pos.mpr hq
  have hn0 : q.num.toNat ≠ 0 := by omega
  have hd0 : q.den ≠ 0 := q.den_nz
  have hq' : q = (q.num.toNat : ℚ) / (q.den : ℚ) := by
    conv_lhs => rw [← Rat.num_div_den q]
    congr 1
    have : ((q.num.toNat : Int) : ℚ) = (q.num : ℚ) := by rw [Int.toNat_of_nonneg (by omega)]
    exact_mod_cast this.symm
  obtain ⟨n, hn⟩ : ∃ n, q.num.toNat = n := ⟨_, rfl⟩
  obtain ⟨d, hd⟩ : ∃ d, q.den = d := ⟨_, rfl⟩
  have hn1 : 2 ^ n.log2 ≤ n := Nat.log2_self_le (by omega)
  have hn2 : n < 2 ^ (n.log2 + 1) := Nat.lt_log2_self
  have hd1 : 2 ^ d.log2 ≤ d := Nat.log2_self_le (by omega)
  have hd2 : d < 2 ^ (d.log2 + 1) := Nat.lt_log2_self
  have hn1' : pow2 n.log2 ≤ (n : ℚ) := by rw [pow2_natCast]; exact_mod_cast hn1
  have hn2' : (n : ℚ) < pow2 ((n.log2 : Int) + 1) := by
    have := pow2_natCast (n.log2 + 1)
    push_cast at this
    rw [this]; exact_mod_cast hn2
  have hd1' : pow2 d.log2 ≤ (d : ℚ) := by rw [pow2_natCast]; exact_mod_cast hd1
  have hd2' : (d : ℚ) < pow2 ((d.log2 : Int) + 1) := by
    have := pow2_natCast (d.log2 + 1)
    push_cast at this
    rw [this]; exact_mod_cast hd2
  have hdpos : (0 : ℚ) < d := by exact_mod_cast Nat.pos_of_ne_zero (by omega)
  have hlow : pow2 ((n.log2 : Int) - d.log2 - 1) ≤ q := by
    rw [hq', hn, hd, le_div_iff₀ hdpos]
    calc pow2 ((n.log2 : Int) - d.log2 - 1) * d
        ≤ pow2 ((n.log2 : Int) - d.log2 - 1) * pow2 ((d.log2 : Int) + 1) :=
          mul_le_mul_of_nonneg_left hd2'.le (pow2_pos _).le
      _ = pow2 n.log2 := by rw [← pow2_add]; congr 1; omega
      _ ≤ n := hn1'
  have hhigh : q < pow2 ((n.log2 : Int) - d.log2 + 1) := by
    rw [hq', hn, hd, div_lt_iff₀ hdpos]
    calc (n : ℚ) < pow2 ((n.log2 : Int) + 1) := hn2'
      _ = pow2 ((n.log2 : Int) - d.log2 + 1) * pow2 d.log2 := by rw [← pow2_add]; congr 1; omega
      _ ≤ pow2 ((n.log2 : Int) - d.log2 + 1) * d :=
          mul_le_mul_of_nonneg_left hd1' (pow2_pos _).le
  unfold ilog2
  simp only [hn, hd]
  split
  · rename_i h; exact ⟨h, hhigh⟩
  · rename_i h
    refine ⟨hlow, ?_⟩
    rw [sub_add_cancel]
    exact not_le.mp h

theorem ilog2_unique {q : ℚ} {e : Int} (h1 : pow2 e ≤ q) (h2 : q < pow2 (e + 1)) : ilog2 q = e := by
  have hq : 0 < q := lt_of_lt_of_le (pow2_pos e) h1
  obtain ⟨a, b⟩ := ilog2_spec hq
  have c1 : ilog2 q < e + 1 := pow2_lt_iff.mp (lt_of_le_of_lt a h2)
  have c2 : e < ilog2 q + 1 := pow2_lt_iff.mp (lt_of_le_of_lt h1 b)
  omega

theorem ilog2_mono {p q : ℚ} (hp : 0 < p) (h : p ≤ q) : ilog2 p ≤ ilog2 q := by
  obtain ⟨a, _⟩ := ilog2_spec hp
  obtain ⟨_, b⟩ := ilog2_spec (lt_of_lt_of_le hp h)
  have := pow2_lt_iff.mp (lt_of_le_of_lt a (lt_of_le_of_lt h b))
  omega

/-! ### Rounding to an integer -/

theorem floor_le' (x : ℚ) : (x.floor : ℚ) ≤ x := by
  rw [← Rat.le_floor_iff]

theorem lt_floor' (x : ℚ) : x < (x.floor : ℚ) + 1 := by
  have : x < ((x.floor + 1 : Int) : ℚ) := Rat.floor_lt_iff.mp (Int.lt_succ x.floor)
  exact_mod_cast this

theorem roundEven_mono {x y : ℚ} (h : x ≤ y) : roundEven x ≤ roundEven y := by
  have hfx := floor_le' x
  have hfy := floor_le' y
  have hfx2 := lt_floor' x
  have hfy2 := lt_floor' y
  have hfl : x.floor ≤ y.floor := by
    rw [Rat.le_floor_iff]; linarith
  unfold roundEven
  dsimp only
  rcases lt_or_eq_of_le hfl with hlt | heq
  · have h1 : x.floor + 1 ≤ y.floor := by omega
    repeat' split
    all_goals omega
  · rw [heq] at hfx hfx2 ⊢
    split
    · repeat' split
      all_goals omega
    · rename_i h1
      split
      · rename_i h2
        rw [if_neg (by linarith), if_pos (by linarith)]
      · rename_i h2
        split
        · repeat' split
          all_goals omega
        · rename_i h3
          by_cases h4 : 1 / 2 < y - (y.floor : ℚ)
          · rw [if_neg (by linarith), if_pos h4]
          · rw [if_neg (by linarith), if_neg h4]

theorem roundEven_intCast (n : Int) : roundEven (n : ℚ) = n := by
  unfold roundEven
  have : (n : ℚ).floor = n := by simp
  simp [this]

theorem roundEven_error (x : ℚ) : |(roundEven x : ℚ) - x| ≤ 1 / 2 := by
  have h1 := floor_le' x
  have h2 := lt_floor' x
  rw [abs_le]
  unfold roundEven
  dsimp only
  split
  · rename_i h; constructor <;> linarith
  · rename_i h
    split
    · push_cast; constructor <;> linarith
    · rename_i h'
      split
      · constructor <;> linarith
      · push_cast; constructor <;> linarith

theorem roundEven_nonneg {x : ℚ} (h : 0 ≤ x) : 0 ≤ roundEven x := by
  have := roundEven_mono h
  have h0 : roundEven 0 = 0 := by exact_mod_cast roundEven_intCast 0
  omega

/-! ### Rounding of magnitudes -/

theorem roundMag_of_pos {fmt : Fmt} {q : ℚ} (hq : 0 < q) :
    roundMag fmt q = (roundEven (q / pow2 (lastPlace fmt q)) : ℚ) * pow2 (lastPlace fmt q) := by
  unfold roundMag; rw [if_neg (ne_of_gt hq)]

theorem roundMag_zero (fmt : Fmt) : roundMag fmt 0 = 0 := by simp [roundMag]

theorem roundMag_nonneg {fmt : Fmt} {q : ℚ} (hq : 0 ≤ q) : 0 ≤ roundMag fmt q := by
  rcases hq.lt_or_eq with h | h
  · rw [roundMag_of_pos h]
    have : 0 ≤ roundEven (q / pow2 (lastPlace fmt q)) :=
      roundEven_nonneg (div_nonneg hq (pow2_pos _).le)
    exact mul_nonneg (by exact_mod_cast this) (pow2_pos _).le
  · rw [← h, roundMag_zero]

/-- Error of rounding: half a unit in the last place. -/
theorem roundMag_error {fmt : Fmt} {q : ℚ} (hq : 0 < q) :
    |roundMag fmt q - q| ≤ pow2 (lastPlace fmt q) / 2 := by
  rw [roundMag_of_pos hq]
  have h := roundEven_error (q / pow2 (lastPlace fmt q))
  have hp := pow2_pos (lastPlace fmt q)
  have : (roundEven (q / pow2 (lastPlace fmt q)) : ℚ) * pow2 (lastPlace fmt q) - q =
      ((roundEven (q / pow2 (lastPlace fmt q)) : ℚ) - q / pow2 (lastPlace fmt q)) *
        pow2 (lastPlace fmt q) := by
    rw [sub_mul, div_mul_cancel₀ _ (ne_of_gt hp)]
  rw [this, abs_mul, abs_of_pos hp]
  calc _ ≤ 1 / 2 * pow2 (lastPlace fmt q) := mul_le_mul_of_nonneg_right h hp.le
    _ = _ := by ring

theorem roundMag_mono {fmt : Fmt} (hprec : 1 ≤ fmt.prec) {p q : ℚ} (hp : 0 ≤ p) (h : p ≤ q) :
    roundMag fmt p ≤ roundMag fmt q := by
  rcases hp.lt_or_eq with hp | hp
  swap
  · rw [← hp, roundMag_zero]; exact roundMag_nonneg (hp ▸ h)
  have hq : 0 < q := lt_of_lt_of_le hp h
  have hl := ilog2_mono hp h
  have hlp : lastPlace fmt p ≤ lastPlace fmt q := by unfold lastPlace; omega
  rw [roundMag_of_pos hp, roundMag_of_pos hq]
  rcases lt_or_eq_of_le hlp with hlt | heq
  · -- Different last places: `q` is at least a power of two that `p` cannot exceed.
    have hlq : lastPlace fmt q = ilog2 q - (fmt.prec - 1) := by unfold lastPlace at hlt ⊢; omega
    have hp1 : (ilog2 p : Int) - (fmt.prec - 1) ≤ lastPlace fmt p := le_max_left _ _
    obtain ⟨_, hp2⟩ := ilog2_spec hp
    obtain ⟨hq1, _⟩ := ilog2_spec hq
    have key1 : (roundEven (p / pow2 (lastPlace fmt p)) : ℚ) ≤ 2 ^ fmt.prec := by
      have : p / pow2 (lastPlace fmt p) ≤ ((2 ^ fmt.prec : Int) : ℚ) := by
        rw [div_le_iff₀ (pow2_pos _)]
        calc p ≤ pow2 (ilog2 p + 1) := hp2.le
          _ ≤ pow2 (fmt.prec + lastPlace fmt p) := pow2_le (by omega)
          _ = _ := by rw [pow2_add, pow2_natCast]; push_cast; rfl
      have := roundEven_mono this
      rw [roundEven_intCast] at this
      exact_mod_cast this
    have key2 : (2 : ℚ) ^ (fmt.prec - 1) ≤ (roundEven (q / pow2 (lastPlace fmt q)) : ℚ) := by
      have : ((2 ^ (fmt.prec - 1) : Int) : ℚ) ≤ q / pow2 (lastPlace fmt q) := by
        rw [le_div_iff₀ (pow2_pos _)]
        calc _ = pow2 ((fmt.prec - 1 : Nat) + lastPlace fmt q) := by
              rw [pow2_add, pow2_natCast]; push_cast; rfl
          _ ≤ pow2 (ilog2 q) := pow2_le (by omega)
          _ ≤ q := hq1
      have := roundEven_mono this
      rw [roundEven_intCast] at this
      exact_mod_cast this
    calc (roundEven (p / pow2 (lastPlace fmt p)) : ℚ) * pow2 (lastPlace fmt p)
        ≤ 2 ^ fmt.prec * pow2 (lastPlace fmt p) := mul_le_mul_of_nonneg_right key1 (pow2_pos _).le
      _ = pow2 (fmt.prec + lastPlace fmt p) := by rw [pow2_add, pow2_natCast]
      _ ≤ pow2 ((fmt.prec - 1 : Nat) + lastPlace fmt q) := pow2_le (by omega)
      _ = 2 ^ (fmt.prec - 1) * pow2 (lastPlace fmt q) := by rw [pow2_add, pow2_natCast]
      _ ≤ _ := mul_le_mul_of_nonneg_right key2 (pow2_pos _).le
  · rw [heq]
    apply mul_le_mul_of_nonneg_right _ (pow2_pos _).le
    have := roundEven_mono (div_le_div_of_nonneg_right h (pow2_pos (lastPlace fmt q)).le)
    exact_mod_cast this

/-- Numbers representable with unbounded exponent. -/
def Representable (fmt : Fmt) (q : ℚ) : Prop :=
  ∃ (m : Nat) (e : Int), m < 2 ^ fmt.prec ∧ fmt.emin ≤ e ∧ q = m * pow2 e

theorem roundMag_exact {fmt : Fmt} {q : ℚ} (h : Representable fmt q) : roundMag fmt q = q := by
  obtain ⟨m, e, hm, he, rfl⟩ := h
  by_cases hm0 : m = 0
  · subst hm0; simp [roundMag_zero]
  have hmpos : (0 : ℚ) < m := by exact_mod_cast Nat.pos_of_ne_zero hm0
  have hq : 0 < (m : ℚ) * pow2 e := mul_pos hmpos (pow2_pos e)
  rw [roundMag_of_pos hq]
  -- The last place is at most `e`.
  have hle : lastPlace fmt ((m : ℚ) * pow2 e) ≤ e := by
    have : ilog2 ((m : ℚ) * pow2 e) < fmt.prec + e := by
      obtain ⟨h1, _⟩ := ilog2_spec hq
      apply pow2_lt_iff.mp
      refine lt_of_le_of_lt h1 ?_
      rw [pow2_add, pow2_natCast]
      exact mul_lt_mul_of_pos_right (by exact_mod_cast hm) (pow2_pos e)
    unfold lastPlace
    omega
  obtain ⟨k, hk⟩ := Int.eq_ofNat_of_zero_le (show 0 ≤ e - lastPlace fmt ((m : ℚ) * pow2 e) by omega)
  generalize lastPlace fmt ((m : ℚ) * pow2 e) = l at *
  have hel : e = k + l := by omega
  subst hel
  have : (m : ℚ) * pow2 (k + l) / pow2 l = ((m * 2 ^ k : Int) : ℚ) := by
    rw [pow2_add, ← mul_assoc, mul_div_assoc, div_self (pow2_ne l), mul_one, pow2_natCast]
    push_cast; rfl
  rw [this, roundEven_intCast, pow2_add, pow2_natCast]
  push_cast
  ring

/-- The result of rounding is representable. -/
theorem roundMag_representable {fmt : Fmt} (hprec : 1 ≤ fmt.prec) {q : ℚ} (hq : 0 ≤ q) :
    Representable fmt (roundMag fmt q) := by
  rcases hq.lt_or_eq with hq | hq
  swap
  · rw [← hq, roundMag_zero]
    exact ⟨0, fmt.emin, by positivity, le_refl _, by simp⟩
  rw [roundMag_of_pos hq]
  have h0 : 0 ≤ roundEven (q / pow2 (lastPlace fmt q)) :=
    roundEven_nonneg (div_nonneg hq.le (pow2_pos _).le)
  obtain ⟨n, hn⟩ := Int.eq_ofNat_of_zero_le h0
  have hemin : fmt.emin ≤ lastPlace fmt q := le_max_right _ _
  have hle : n ≤ 2 ^ fmt.prec := by
    obtain ⟨_, h2⟩ := ilog2_spec hq
    have hl : (ilog2 q : Int) - (fmt.prec - 1) ≤ lastPlace fmt q := le_max_left _ _
    have : q / pow2 (lastPlace fmt q) ≤ ((2 ^ fmt.prec : Int) : ℚ) := by
      rw [div_le_iff₀ (pow2_pos _)]
      calc q ≤ pow2 (ilog2 q + 1) := h2.le
        _ ≤ pow2 (fmt.prec + lastPlace fmt q) := pow2_le (by omega)
        _ = _ := by rw [pow2_add, pow2_natCast]; push_cast; rfl
    have := roundEven_mono this
    rw [roundEven_intCast, hn] at this
    exact_mod_cast this
  rw [hn]
  rcases lt_or_eq_of_le hle with h | h
  · exact ⟨n, lastPlace fmt q, h, hemin, by push_cast; rfl⟩
  · refine ⟨2 ^ (fmt.prec - 1), lastPlace fmt q + 1, ?_, by omega, ?_⟩
    · exact Nat.pow_lt_pow_right (by omega) (by omega)
    · rw [pow2_succ, h]
      obtain ⟨p, hp⟩ : ∃ p, fmt.prec = p + 1 := ⟨fmt.prec - 1, by omega⟩
      rw [hp]
      push_cast
      rw [pow_succ]
      ring

end ModelarDB.Lemmas
