import Verif.Spec.Embedded
/-
Lemmas on the tables of data folders.
-/
namespace ModelarDB.Lemmas.Embedded
open Model Model.Embedded Spec.Embedded

variable {κ δ σ : Type} [DecidableEq κ]

theorem itemsOf_append (st : State κ δ σ) (key k : κ) (items : List σ) :
    itemsOf (st.append key items) k = itemsOf st k ++ if k = key ∧ (st key).isSome then items else [] := by
  unfold itemsOf State.append
  cases h : st key with
  | none => simp
  | some t =>
    by_cases hk : k = key
    · subst hk
      simp [State.set, h]
    · simp [State.set, hk]

theorem isSome_append (st : State κ δ σ) (key k : κ) (items : List σ) : (st.append key items k).isSome = (st k).isSome := by
  unfold State.append
  cases h : st key with
  | none => rfl
  | some t =>
    by_cases hk : k = key
    · subst hk
      simp [State.set, h]
    · simp [State.set, hk]

/-- What is not stored stays as it is. -/
theorem table_append (st : State κ δ σ) (key k : κ) (items : List σ) {t : Table δ σ} (h : st k = some t) :
    st.append key items k = some { t with items := itemsOf (st.append key items) k } := by
  unfold itemsOf State.append
  cases h' : st key with
  | none => simp [h]
  | some t' =>
    by_cases hk : k = key
    · subst hk
      rw [h] at h'
      injection h' with h'
      subst h'
      simp [State.set]
    · simp [State.set, hk, h]

theorem itemsOf_addOthers (others : Others κ σ) (st : State κ δ σ) (k : κ) (h : (st k).isSome) :
    itemsOf (addOthers st others) k = itemsOf st k ++ addedTo others k := by
  induction others generalizing st with
  | nil => simp [addOthers, addedTo]
  | cons o others ih =>
    have : addOthers st (o :: others) = addOthers (st.append o.1 o.2) others := rfl
    rw [this, ih _ (by rw [isSome_append]; exact h), itemsOf_append]
    unfold addedTo
    by_cases hk : o.1 = k
    · subst hk
      simp [h]
    · simp [Ne.symm hk, hk]

theorem isSome_addOthers (others : Others κ σ) (st : State κ δ σ) (k : κ) : (addOthers st others k).isSome = (st k).isSome := by
  induction others generalizing st with
  | nil => rfl
  | cons o others ih =>
    have : addOthers st (o :: others) = addOthers (st.append o.1 o.2) others := rfl
    rw [this, ih, isSome_append]

theorem table_addOthers (others : Others κ σ) (st : State κ δ σ) (k : κ) {t : Table δ σ} (h : st k = some t) :
    addOthers st others k = some { t with items := itemsOf (addOthers st others) k } := by
  induction others generalizing st t with
  | nil =>
    change st k = some { t with items := itemsOf st k }
    unfold itemsOf
    rw [h]
    rfl
  | cons o others ih =>
    have : addOthers st (o :: others) = addOthers (st.append o.1 o.2) others := rfl
    rw [this, ih _ (table_append st o.1 k o.2 h)]

theorem itemsOf_truncate {st st' : State κ δ σ} {key : κ} (h : truncate st key = .ok st') (k : κ) :
    itemsOf st' k = if k = key then [] else itemsOf st k := by
  unfold truncate at h
  split at h
  · cases h
  · injection h with h
    subst h
    by_cases hk : k = key
    · subst hk
      simp [itemsOf, State.set]
    · simp [itemsOf, State.set, hk]

end ModelarDB.Lemmas.Embedded
