import Verif.Model.Addresses
namespace ModelarDB.Lemmas.Addresses
open Model.Addresses

/-- The port has no colon, so where the host ends is known. -/
theorem split_colon {a b c d : List Char} (hc : ':' ∉ c) (hd : ':' ∉ d) (h : a ++ ':' :: c = b ++ ':' :: d) : a = b ∧ c = d := by
  induction a generalizing b with
  | nil =>
    cases b with
    | nil => exact ⟨rfl, (List.cons.inj h).2⟩
    | cons x b =>
      obtain ⟨_, h⟩ := List.cons.inj h
      exact absurd (h ▸ List.mem_append_right _ List.mem_cons_self) hc
  | cons x a ih =>
    cases b with
    | nil =>
      obtain ⟨_, h⟩ := List.cons.inj h
      exact absurd (h ▸ List.mem_append_right _ List.mem_cons_self) hd
    | cons y b =>
      obtain ⟨h1, h2⟩ := List.cons.inj h
      obtain ⟨h3, h4⟩ := ih h2
      exact ⟨by rw [h1, h3], h4⟩

theorem colon_toDigits (n : Nat) : ':' ∉ Nat.toDigits 10 n := fun h =>
  absurd (Nat.isDigit_of_mem_toDigits (by omega) (by omega) h) (by decide)

/-- What is known about nodes. -/
structure Inv (nodes : List Nat) (member : Nat → Member) (st : State) : Prop where
  known : ∀ n, st.phase n ≠ .outside → n ∈ nodes
  listed : ∀ n, st.phase n ≠ .outside → (∀ k, k ≠ n → (member k).url ≠ (member n).url) → (member n).url ∈ st.rows
  alone : ∀ n k, st.phase n = .serving → st.phase k = .serving → (member n).machine = (member k).machine → (member n).port = (member k).port → n = k

theorem inv_empty (nodes : List Nat) (member : Nat → Member) : Inv nodes member .empty :=
  ⟨fun _ h => absurd rfl h, fun _ h => absurd rfl h, nofun⟩

theorem inv_step {nodes : List Nat} {member : Nat → Member} {st st' : State} {s : Step} (h : Inv nodes member st) (hs : step nodes member st s = some st') :
    Inv nodes member st' := by
  have out : ∀ {n : Nat} {rows : List (List Char)},
      (∀ k, k ≠ n → st.phase k ≠ .outside → (∀ j, j ≠ k → (member j).url ≠ (member k).url) → (member k).url ∈ rows) →
      Inv nodes member ⟨rows, setPhase st.phase n .outside⟩ := by
    intro n rows hrows
    refine ⟨fun k hk => ?_, fun k hk hu => ?_, fun a b ha hb hm hp => ?_⟩
    · simp only [setPhase] at hk
      split at hk
      · exact absurd rfl hk
      · exact h.known k hk
    · simp only [setPhase] at hk
      split at hk
      · exact absurd rfl hk
      · next hne => exact hrows k hne hk hu
    · simp only [setPhase] at ha hb
      split at ha <;> split at hb <;> first | cases ha | cases hb | exact h.alone a b ha hb hm hp
  cases s with
  | start n =>
    simp only [step] at hs
    split at hs
    · next hn =>
      cases hs
      refine ⟨fun k hk => ?_, fun k hk hu => ?_, fun a b ha hb hm hp => ?_⟩
      · by_cases hkn : k = n
        · exact hkn ▸ hn.1
        · simp only [setPhase, if_neg hkn] at hk; exact h.known k hk
      · by_cases hkn : k = n
        · subst hkn; exact List.mem_append_right _ List.mem_cons_self
        · simp only [setPhase, if_neg hkn] at hk
          exact List.mem_append_left _ (h.listed k hk hu)
      · simp only [setPhase] at ha hb
        split at ha <;> split at hb <;> first | cases ha | cases hb | exact h.alone a b ha hb hm hp
    · cases hs
  | serve n =>
    simp only [step] at hs
    split at hs
    · next hn =>
      cases hs
      have hne : st.phase n ≠ .outside := by rw [hn.1]; nofun
      have free : ∀ k, st.phase k = .serving → (member n).machine = (member k).machine → (member n).port = (member k).port → False := by
        intro k hk hm hp
        have := List.all_eq_true.mp hn.2 k (h.known k (by rw [hk]; nofun))
        simp [listens, hk, hm, hp] at this
      refine ⟨fun k hk => ?_, fun k hk hu => ?_, fun a b ha hb hm hp => ?_⟩
      · by_cases hkn : k = n
        · exact hkn ▸ h.known n hne
        · simp only [setPhase, if_neg hkn] at hk; exact h.known k hk
      · by_cases hkn : k = n
        · subst hkn; exact h.listed _ hne hu
        · simp only [setPhase, if_neg hkn] at hk; exact h.listed k hk hu
      · by_cases han : a = n <;> by_cases hbn : b = n
        · rw [han, hbn]
        · subst han
          simp only [setPhase, if_neg hbn] at hb
          exact (free b hb hm hp).elim
        · subst hbn
          simp only [setPhase, if_neg han] at ha
          exact (free a ha hm.symm hp.symm).elim
        · simp only [setPhase, if_neg han] at ha
          simp only [setPhase, if_neg hbn] at hb
          exact h.alone a b ha hb hm hp
    · cases hs
  | leave n =>
    simp only [step] at hs
    split at hs
    · cases hs
    · cases hs
      exact out (fun k hk ho hu => List.mem_filter.mpr ⟨h.listed k ho hu, by simpa using (hu n (Ne.symm hk)).symm⟩)
  | crash n =>
    cases hs
    exact out (fun k _ ho hu => h.listed k ho hu)

theorem inv_run {nodes : List Nat} {member : Nat → Member} {steps : List Step} {st st' : State} (h : Inv nodes member st)
    (hs : run nodes member st steps = some st') : Inv nodes member st' := by
  induction steps generalizing st with
  | nil => cases hs; exact h
  | cons s rest ih =>
    simp only [run, Option.bind_eq_some_iff] at hs
    obtain ⟨st1, h1, h2⟩ := hs
    exact ih (inv_step h h1) h2

theorem mem_receivers {f : List Char → Option Nat} {urls : List (List Char)} {ns : List Nat} (h : receivers f urls = some ns) :
    (∀ url ∈ urls, ∃ n ∈ ns, f url = some n) ∧ ∀ n ∈ ns, ∃ url ∈ urls, f url = some n := by
  induction urls generalizing ns with
  | nil => cases h; exact ⟨nofun, nofun⟩
  | cons url rest ih =>
    simp only [receivers, Option.bind_eq_some_iff, Option.map_eq_some_iff] at h
    obtain ⟨n, hn, ms, hms, rfl⟩ := h
    obtain ⟨h1, h2⟩ := ih hms
    constructor
    · intro x hx
      rcases List.mem_cons.mp hx with rfl | hx
      · exact ⟨n, List.mem_cons_self, hn⟩
      · obtain ⟨m, hm, e⟩ := h1 x hx
        exact ⟨m, List.mem_cons_of_mem _ hm, e⟩
    · intro m hm
      rcases List.mem_cons.mp hm with rfl | hm
      · exact ⟨url, List.mem_cons_self, hn⟩
      · obtain ⟨x, hx, e⟩ := h2 m hm
        exact ⟨x, List.mem_cons_of_mem _ hx, e⟩

theorem rows_step {nodes : List Nat} {member : Nat → Member} {st st' : State} {s : Step} (hs : step nodes member st s = some st') :
    ∀ url ∈ st'.rows, url ∈ st.rows ∨ ∃ n ∈ nodes, url = (member n).url := by
  intro url hu
  cases s with
  | start n =>
    simp only [step] at hs
    split at hs
    · next hn =>
      cases hs
      rcases List.mem_append.mp hu with hu | hu
      · exact .inl hu
      · exact .inr ⟨n, hn.1, List.mem_singleton.mp hu⟩
    · cases hs
  | serve n =>
    simp only [step] at hs
    split at hs
    · cases hs; exact .inl hu
    · cases hs
  | leave n =>
    simp only [step] at hs
    split at hs
    · cases hs
    · cases hs; exact .inl (List.mem_filter.mp hu).1
  | crash n => cases hs; exact .inl hu

theorem rows_run {nodes : List Nat} {member : Nat → Member} {steps : List Step} {st st' : State} (hs : run nodes member st steps = some st') :
    ∀ url ∈ st'.rows, url ∈ st.rows ∨ ∃ n ∈ nodes, url = (member n).url := by
  induction steps generalizing st with
  | nil => cases hs; exact fun _ => .inl
  | cons s rest ih =>
    simp only [run, Option.bind_eq_some_iff] at hs
    obtain ⟨st1, h1, h2⟩ := hs
    intro url hu
    rcases ih h2 url hu with h | h
    · exact rows_step h1 url h
    · exact .inr h

end ModelarDB.Lemmas.Addresses
