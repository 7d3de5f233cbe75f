import Verif.Props.C42
/-
C41: a vacuum retention period outside the allowed range is rejected.
-/
namespace ModelarDB.Props
open Model.Statements Spec Lemmas

theorem retentionUsed_some {r : Nat} (h : r < 2 ^ 63) : retentionUsed (some r) = if r ≤ maxRetention then some (r : Int) else none := by
  unfold retentionUsed timeDelta castI64 maxRetention
  rw [Option.getD_some, if_pos h]
  split <;> split <;> first | rfl | omega

/-- **C41** (SQL): VACUUM with a period is rejected if the period is longer than the maximum. Otherwise it is used as given, and no stale file
that is not older than the period is deleted. -/
theorem C41_sql (pre body post : List Token) (ws : List Word) (r : Nat) (cluster : Bool) (hpre : Ends pre) (hpost : Ends post)
    (h : SaysVacuum body ws (some r) cluster) :
    (maxRetention < r → parse (pre ++ (body ++ post)) = none) ∧
    (r ≤ maxRetention → (∃ names, parse (pre ++ (body ++ post)) = some (.vacuum names (some r) cluster)) ∧
      retentionUsed (some r) = some (r : Int) ∧ ∀ ages, ∀ age ∈ ages, age ∈ vacuumDeletes r ages ↔ r < age) := by
  rw [parse_vacuum hpre hpost h]
  constructor
  · intro hr
    rw [if_neg fun hc => absurd (hc r rfl) (by omega)]
  · intro hr
    rw [if_pos (by rintro n ⟨⟩; exact hr)]
    refine ⟨⟨_, rfl⟩, ?_, fun ages age hage => ?_⟩
    · rw [retentionUsed_some (by unfold maxRetention at hr; omega), if_pos hr]
    · simp [vacuumDeletes, hage]

/-- **C41** (API, partial): a period that is at most `i64::MAX` is used as given or, exactly if it is longer than the maximum, rejected. Missing:
longer periods, see `C41_wrapped`. -/
theorem C41_api_partial (r : Nat) (h : r < 2 ^ 63) :
    (maxRetention < r → retentionUsed (some r) = none) ∧ (r ≤ maxRetention → retentionUsed (some r) = some (r : Int)) := by
  rw [retentionUsed_some h]
  exact ⟨fun hr => if_neg (by omega), fun hr => if_pos hr⟩

/-- Which periods the API accepts: those that are at most the maximum, and those that wrap around to the negative of such a period. With the
latter every stale file is deleted, also those that were written just before. -/
theorem C41_wrapped (r : Nat) (h : r < 2 ^ 64) :
    (retentionUsed (some r) = none ↔ maxRetention < r ∧ r < 2 ^ 64 - maxRetention) ∧
    (2 ^ 64 - maxRetention ≤ r → retentionUsed (some r) = some ((r : Int) - 2 ^ 64) ∧ ∀ ages, vacuumDeletes ((r : Int) - 2 ^ 64) ages = ages) := by
  unfold retentionUsed timeDelta castI64 maxRetention
  rw [Option.getD_some]
  constructor
  · split <;> split <;> simp <;> omega
  · intro hr
    rw [show (if r < 2 ^ 63 then (r : Int) else (r : Int) - 2 ^ 64) = (r : Int) - 2 ^ 64 from if_neg (by omega), if_pos (by omega)]
    refine ⟨rfl, fun ages => ?_⟩
    unfold vacuumDeletes
    rw [List.filter_eq_self]
    intro a _
    simp only [decide_eq_true_eq]
    omega

/-- Without a period, the files of the last seven days are kept. -/
theorem C41_default : retentionUsed none = some 604800 := by decide +kernel

/-- **C41** is false of the code: the API accepts the longest period and deletes all stale files. -/
theorem C41_longest : maxRetention < 2 ^ 64 - 1 ∧ retentionUsed (some (2 ^ 64 - 1)) = some (-1) ∧
    vacuumDeletes (-1) [0, 5, 1000000] = [0, 5, 1000000] := by
  decide +kernel

/-- `VACUUM a RETAIN 9223372036854776` is rejected and `VACUUM a RETAIN 9223372036854775` is not. -/
example : (tokenize "VACUUM a RETAIN 9223372036854776".toList).bind parse = none ∧
    (tokenize "VACUUM a RETAIN 9223372036854775".toList).bind parse = some (.vacuum [['a']] (some 9223372036854775) false) ∧
    maxRetention = 9223372036854775 := by
  decide +kernel

end ModelarDB.Props
