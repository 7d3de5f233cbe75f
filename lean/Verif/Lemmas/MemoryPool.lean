import Verif.Spec.MemoryPool
/-
Invariant of the memory pool.
-/
namespace ModelarDB.Lemmas.MemoryPool
open Model.MemoryPool Spec.MemoryPool

/-! Lists of requests. -/

theorem sum_set {l : List Request} {i : Nat} {r r' : Request} (h : l[i]? = some r) :
    (((l.set i r').filter fun r => r.phase = .holding).map Request.size).sum + (if r.phase = .holding then r.size else 0) =
      ((l.filter fun r => r.phase = .holding).map Request.size).sum + (if r'.phase = .holding then r'.size else 0) := by
  induction l generalizing i with
  | nil => simp at h
  | cons x l ih =>
    cases i with
    | zero =>
      simp only [List.getElem?_cons_zero, Option.some.injEq] at h
      subst h
      simp only [List.set_cons_zero, List.filter_cons]
      split <;> split <;> simp_all <;> omega
    | succ i =>
      simp only [List.getElem?_cons_succ] at h
      have := ih h
      simp only [List.set_cons_succ, List.filter_cons]
      split
      · simp only [List.map_cons, List.sum_cons]
        omega
      · exact this

theorem sum_erase {l : List Request} {i : Nat} {r : Request} (h : l[i]? = some r) :
    (((l.eraseIdx i).filter fun r => r.phase = .holding).map Request.size).sum + (if r.phase = .holding then r.size else 0) =
      ((l.filter fun r => r.phase = .holding).map Request.size).sum := by
  induction l generalizing i with
  | nil => simp at h
  | cons x l ih =>
    cases i with
    | zero =>
      simp only [List.getElem?_cons_zero, Option.some.injEq] at h
      subst h
      simp only [List.eraseIdx_cons_zero, List.filter_cons]
      split <;> simp_all
      omega
    | succ i =>
      simp only [List.getElem?_cons_succ] at h
      have := ih h
      simp only [List.eraseIdx_cons_succ, List.filter_cons]
      split
      · simp only [List.map_cons, List.sum_cons]
        omega
      · exact this

theorem sum_wake (l : List Request) :
    (((l.map wake).filter fun r => r.phase = .holding).map Request.size).sum =
      ((l.filter fun r => r.phase = .holding).map Request.size).sum := by
  induction l with
  | nil => rfl
  | cons x l ih =>
    obtain ⟨size, phase⟩ := x
    cases phase <;> simp only [List.map_cons, List.filter_cons, wake, reduceCtorEq, if_true, if_false, decide_true, decide_false,
      Bool.false_eq_true, List.sum_cons, ih]

/-- What is handed out and what remains is what is configured, and a thread waits although there is enough memory only if
another thread is about to notify it. -/
structure PoolInv (p : Pool) : Prop where
  account : p.remaining + handedOut p = p.budget
  noLostWakeup : p.notifying = 0 → ∀ r ∈ p.requests, r.phase = .waiting → p.remaining < r.size

theorem poolInv_step {p p' : Pool} {op : Op} (h : p.step op = some p') (hi : PoolInv p) : PoolInv p' := by
  have ha := hi.account
  unfold handedOut at ha
  cases op with
  | request size =>
    cases h
    refine ⟨?_, fun hn r hr hw => ?_⟩
    · simpa [handedOut, List.filter_append] using ha
    · rw [List.mem_append, List.mem_singleton] at hr
      rcases hr with hr | rfl
      · exact hi.noLostWakeup hn r hr hw
      · cases hw
  | run i =>
    simp only [Pool.step] at h
    split at h
    · next size hr =>
      split at h
      · next hlt =>
        cases h
        have := sum_set (r' := ⟨size, .waiting⟩) hr
        simp only [reduceCtorEq, if_false, Nat.add_zero] at this
        refine ⟨?_, fun hn r hm hw => ?_⟩
        · unfold handedOut
          rw [this]
          exact ha
        · rcases List.mem_or_eq_of_mem_set hm with hm | rfl
          · exact hi.noLostWakeup hn r hm hw
          · exact hlt
      · next hge =>
        cases h
        have := sum_set (r' := ⟨size, .holding⟩) hr
        simp only [reduceCtorEq, if_false, Nat.add_zero, if_true] at this
        refine ⟨?_, fun hn r hm hw => ?_⟩
        · unfold handedOut
          rw [this]
          push_cast
          omega
        · rcases List.mem_or_eq_of_mem_set hm with hm | rfl
          · have := hi.noLostWakeup hn r hm hw
            dsimp only
            omega
          · cases hw
    · cases h
  | spurious i =>
    simp only [Pool.step] at h
    split at h
    · next size hr =>
      cases h
      have := sum_set (r' := ⟨size, .ready⟩) hr
      simp only [reduceCtorEq, if_false, Nat.add_zero] at this
      refine ⟨?_, fun hn r hm hw => ?_⟩
      · unfold handedOut
        rw [this]
        exact ha
      · rcases List.mem_or_eq_of_mem_set hm with hm | rfl
        · exact hi.noLostWakeup hn r hm hw
        · cases hw
    · cases h
  | release i =>
    simp only [Pool.step] at h
    split at h
    · next size hr =>
      cases h
      have := sum_erase hr
      simp only [if_true] at this
      refine ⟨?_, fun hn => ?_⟩
      · unfold handedOut
        dsimp only
        omega
      · simp at hn
    · cases h
  | adjust change =>
    cases h
    refine ⟨?_, fun hn => ?_⟩
    · unfold handedOut
      dsimp only
      omega
    · simp at hn
  | notify =>
    simp only [Pool.step] at h
    split at h
    · cases h
      refine ⟨?_, fun hn r hm hw => ?_⟩
      · unfold handedOut
        rw [sum_wake]
        exact ha
      · obtain ⟨r', _, rfl⟩ := List.mem_map.mp hm
        unfold wake at hw
        split at hw
        · cases hw
        · next hne => exact absurd hw hne
    · cases h

theorem poolInv_run {ops : List Op} {p p' : Pool} (h : p.run ops = some p') (hi : PoolInv p) : PoolInv p' := by
  induction ops generalizing p with
  | nil => cases h; exact hi
  | cons op ops ih =>
    simp only [Pool.run] at h
    obtain ⟨p₁, h1, h2⟩ := Option.bind_eq_some_iff.mp h
    exact ih h2 (poolInv_step h1 hi)

theorem poolInv_new (size : Nat) : PoolInv (.new size) :=
  ⟨by simp [Pool.new, handedOut], fun _ r hr => by cases hr⟩

end ModelarDB.Lemmas.MemoryPool
