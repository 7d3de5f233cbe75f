import Verif.Lemmas.QueryFilter
import Verif.Lemmas.TableDefinition
/-
Lemmas about the columns of queries.
-/
namespace ModelarDB.Lemmas
open Model Model.Query Model.TableDefinition Spec

variable {ε : Type}

theorem addSources_prefix : ∀ (sources projection : List Nat), ∃ t, addSources projection sources = projection ++ t ∧ ∀ i ∈ t, i ∈ sources
  | [], p => ⟨[], by simp [addSources]⟩
  | s :: sources, p => by
    unfold addSources
    split
    · obtain ⟨t, h1, h2⟩ := addSources_prefix sources p
      exact ⟨t, h1, fun i hi => List.mem_cons_of_mem _ (h2 i hi)⟩
    · obtain ⟨t, h1, h2⟩ := addSources_prefix sources (p ++ [s])
      refine ⟨s :: t, by rw [h1]; simp, ?_⟩
      simp only [List.mem_cons, forall_eq_or_imp, true_or, true_and]
      exact fun i hi => .inr (h2 i hi)

theorem addSources_mem : ∀ (sources projection : List Nat), ∀ i ∈ sources, i ∈ addSources projection sources
  | [], p => by simp
  | s :: sources, p => by
    unfold addSources
    intro i hi
    rcases List.mem_cons.mp hi with rfl | hi
    · obtain ⟨t, h1, _⟩ := addSources_prefix sources (if p.contains i then p else p ++ [i])
      rw [h1]
      split
      · rename_i h
        simp only [List.contains_iff_mem] at h
        simp [h]
      · simp
    · exact addSources_mem sources _ i hi

/-- A column that is generated. -/
def isGen (m : Metadata ε) (i : Nat) : Bool := match m.generated[i]? with
  | some (some _) => true
  | _ => false

/-- The generated columns of a projection. -/
def genList (m : Metadata ε) : Nat → List Nat → List (Nat × ε)
  | _, [] => []
  | k, i :: P => match m.generated[i]? with
    | some (some g) => (k, g.expr) :: genList m (k + 1) P
    | _ => genList m (k + 1) P

section Generate
variable {κ : Type} (m : Metadata ε) (val : Nat → κ) (P : List Nat)

/-- The stored columns of a projection. -/
def storedOf (m : Metadata ε) (P : List Nat) : List Nat := P.filter fun i => !isGen m i

theorem storedOf_get {u : Nat} {i : Nat} (hi : P[u]? = some i) (hg : isGen m i = false) :
    (storedOf m P)[u - (P.take u).countP (isGen m)]? = some i := by
  have hlt := (List.getElem?_eq_some_iff.mp hi).1
  have hsplit : P = P.take u ++ i :: P.drop (u + 1) := by
    have h := List.drop_eq_getElem_cons hlt
    rw [(List.getElem?_eq_some_iff.mp hi).2] at h
    rw [← h, List.take_append_drop]
  have hlen : (storedOf m (P.take u)).length = u - (P.take u).countP (isGen m) := by
    have h1 : (P.take u).length = (P.take u).countP (isGen m) + (P.take u).countP (fun i => !isGen m i) := by
      rw [List.length_eq_countP_add_countP (isGen m)]
      congr 1
      simp
    have h2 : (storedOf m (P.take u)).length = (P.take u).countP (fun i => !isGen m i) := by
      rw [storedOf, List.countP_eq_length_filter]
    rw [List.length_take] at h1
    omega
  rw [← hlen]
  have h3 : storedOf m P = storedOf m (P.take u) ++ storedOf m (i :: P.drop (u + 1)) := by
    conv_lhs => rw [hsplit]
    exact List.filter_append _ _
  rw [h3, List.getElem?_append_right (Nat.le_refl _), Nat.sub_self]
  simp [storedOf, hg]

theorem addStored_run {u : Nat} (hu : u ≤ P.length) : ∀ (n c : Nat), u - c = n → c ≤ u →
    (∀ j i, c ≤ j → j < u → P[j]? = some i → isGen m i = false) →
    addStored ((storedOf m P).map val) ((P.take c).countP (isGen m)) ((P.take c).map val) u = some ((P.take u).map val)
  | 0, c, hn, hc, _ => by
    have : c = u := by omega
    subst this
    unfold addStored
    rw [if_neg (by simp [hu])]
  | n + 1, c, hn, hc, hno => by
    have hcP : c < P.length := by omega
    have hget : P[c]? = some P[c] := List.getElem?_eq_getElem hcP
    have hg := hno c _ (Nat.le_refl _) (by omega) hget
    have hlen : ((P.take c).map val).length = c := by simp; omega
    unfold addStored
    rw [if_pos (by rw [hlen]; omega), hlen, List.getElem?_map, storedOf_get m P hget hg]
    have htake : (P.take c).map val ++ [val P[c]] = (P.take (c + 1)).map val := by
      rw [List.take_succ_eq_append_getElem hcP, List.map_append, List.map_singleton]
    have hcount : (P.take c).countP (isGen m) = (P.take (c + 1)).countP (isGen m) := by
      rw [List.take_succ_eq_append_getElem hcP, List.countP_append]
      simp [hg]
    simp only [Option.map_some]
    rw [htake, hcount]
    exact addStored_run hu n (c + 1) (by omega) (by omega) fun j i h1 h2 h3 => hno j i (by omega) h2 h3

variable {P}

theorem isGen_iff {i : Nat} : isGen m i = true ↔ ∃ g, m.generated[i]? = some (some g) := by
  unfold isGen
  split
  · rename_i g h
    simp [h]
  · rename_i h
    simp only [Bool.false_eq_true, false_iff]
    rintro ⟨g, hg⟩
    exact h g hg

theorem genList_stored {i k : Nat} (hg : isGen m i = false) (Q : List Nat) : genList m k (i :: Q) = genList m (k + 1) Q := by
  rw [genList]
  unfold isGen at hg
  split
  · rename_i g h
    rw [h] at hg
    cases hg
  · rfl

/-- No column in a part of a projection is generated. -/
def NoGen (P : List Nat) (a b : Nat) : Prop := ∀ j i, a ≤ j → j < b → P[j]? = some i → isGen m i = false

/-- A column that is generated. -/
theorem generateColumns_step (evaluate : ε → List κ → Option κ) {i : Nat} {Q pre : List Nat} {c : Nat} (hP : pre ++ i :: Q = P)
    (hc : c ≤ pre.length) (hno : NoGen m P c pre.length) {g : Generated ε} (hgen : m.generated[i]? = some (some g))
    (hval : ∀ v, evaluate g.expr ((storedOf m P).map val) = some v → v = val i) :
    generateColumns evaluate ((storedOf m P).map val) (genList m pre.length (i :: Q)) ((P.take c).countP (isGen m)) ((P.take c).map val) =
      match evaluate g.expr ((storedOf m P).map val) with
      | none => .error .error
      | some _ => generateColumns evaluate ((storedOf m P).map val) (genList m (pre.length + 1) Q)
          ((P.take (pre.length + 1)).countP (isGen m)) ((P.take (pre.length + 1)).map val) := by
  have hi : P[pre.length]? = some i := by rw [← hP]; simp
  have hlenP : pre.length < P.length := (List.getElem?_eq_some_iff.mp hi).1
  have hi' : P[pre.length] = i := (List.getElem?_eq_some_iff.mp hi).2
  have hg : isGen m i = true := (isGen_iff m).mpr ⟨g, hgen⟩
  have hstored := addStored_run m val P (Nat.le_of_lt hlenP) _ c rfl hc hno
  have hcount : (P.take c).countP (isGen m) = (P.take pre.length).countP (isGen m) := by
    have : P.take pre.length = P.take c ++ (P.take pre.length).drop c := by
      conv_lhs => rw [← List.take_append_drop c (P.take pre.length)]
      rw [List.take_take, Nat.min_eq_left hc]
    rw [this, List.countP_append, Nat.left_eq_add, List.countP_eq_zero]
    intro x hx
    obtain ⟨j, hj⟩ := List.mem_iff_getElem?.mp hx
    rw [List.getElem?_drop, List.getElem?_take] at hj
    split at hj
    · rename_i hlt
      simp [hno _ x (by omega) hlt hj]
    · cases hj
  rw [genList, hgen]
  simp only [generateColumns, hstored]
  cases hv : evaluate g.expr ((storedOf m P).map val) with
  | none => rfl
  | some v =>
    simp only
    rw [hval v hv, List.take_succ_eq_append_getElem hlenP, hi', List.countP_append, hcount, List.map_append]
    simp [hg]

theorem generateColumns_run (evaluate : ε → List κ → Option κ)
    (heval : ∀ i g, m.generated[i]? = some (some g) → i ∈ P → evaluate g.expr ((storedOf m P).map val) = some (val i)) :
    ∀ (Q pre : List Nat) (c : Nat), pre ++ Q = P → c ≤ pre.length → NoGen m P c pre.length →
    ∃ c', generateColumns evaluate ((storedOf m P).map val) (genList m pre.length Q) ((P.take c).countP (isGen m)) ((P.take c).map val) =
        .ok ((P.take c').countP (isGen m), (P.take c').map val) ∧ NoGen m P c' P.length ∧
      ∀ n, c ≤ n → NoGen m P n P.length → c' ≤ n
  | [], pre, c, hP, hc, hno => by
    refine ⟨c, rfl, ?_, fun n h _ => h⟩
    rw [List.append_nil] at hP
    rw [← hP] at hno ⊢
    exact hno
  | i :: Q, pre, c, hP, hc, hno => by
    have hP' : (pre ++ [i]) ++ Q = P := by rw [← hP]; simp
    have hi : P[pre.length]? = some i := by rw [← hP]; simp
    have hlenP : pre.length < P.length := (List.getElem?_eq_some_iff.mp hi).1
    have hlen : (pre ++ [i]).length = pre.length + 1 := by simp
    by_cases hg : isGen m i = true
    · obtain ⟨g, hgen⟩ := (isGen_iff m).mp hg
      have he := heval i g hgen (List.mem_of_getElem? hi)
      obtain ⟨c', h1, h2, h3⟩ := generateColumns_run evaluate heval Q (pre ++ [i]) (pre ++ [i]).length hP' (Nat.le_refl _)
        (fun j i h1 h2 _ => absurd h1 (by omega))
      refine ⟨c', ?_, h2, ?_⟩
      · rw [generateColumns_step m val evaluate hP hc hno hgen (by rw [he]; rintro v ⟨⟩; rfl), he]
        simp only
        rw [hlen] at h1
        exact h1
      · intro n hn hno'
        refine h3 n ?_ hno'
        by_contra hlt
        rw [hno' pre.length i (by omega) hlenP hi] at hg
        cases hg
    · have hg' : isGen m i = false := by simpa using hg
      rw [genList_stored m hg', ← hlen]
      refine generateColumns_run evaluate heval Q (pre ++ [i]) c hP' (by omega) ?_
      intro j x h1 h2 h3
      by_cases hj : j = pre.length
      · subst hj
        rw [hi] at h3
        cases h3
        exact hg'
      · exact hno j x h1 (by omega) h3

/-- If an expression has no value, the query fails. -/
theorem generateColumns_fails (evaluate : ε → List κ → Option κ)
    (hval : ∀ i g v, m.generated[i]? = some (some g) → i ∈ P → evaluate g.expr ((storedOf m P).map val) = some v → v = val i) :
    ∀ (Q pre : List Nat) (c : Nat), pre ++ Q = P → c ≤ pre.length → NoGen m P c pre.length →
    (∃ i g, i ∈ Q ∧ m.generated[i]? = some (some g) ∧ evaluate g.expr ((storedOf m P).map val) = none) →
    generateColumns evaluate ((storedOf m P).map val) (genList m pre.length Q) ((P.take c).countP (isGen m)) ((P.take c).map val) =
      .error .error
  | [], pre, c, hP, hc, hno, hf => by simp at hf
  | i :: Q, pre, c, hP, hc, hno, hf => by
    have hP' : (pre ++ [i]) ++ Q = P := by rw [← hP]; simp
    have hi : P[pre.length]? = some i := by rw [← hP]; simp
    have hlen : (pre ++ [i]).length = pre.length + 1 := by simp
    by_cases hg : isGen m i = true
    · obtain ⟨g, hgen⟩ := (isGen_iff m).mp hg
      rw [generateColumns_step m val evaluate hP hc hno hgen fun v hv => hval i g v hgen (List.mem_of_getElem? hi) hv]
      cases he : evaluate g.expr ((storedOf m P).map val) with
      | none => rfl
      | some v =>
        simp only
        have := generateColumns_fails evaluate hval Q (pre ++ [i]) (pre ++ [i]).length hP' (Nat.le_refl _)
          (fun j i h1 h2 _ => absurd h1 (by omega)) (by
            obtain ⟨x, g', hx, hx', hx''⟩ := hf
            rcases List.mem_cons.mp hx with rfl | hx
            · rw [hgen] at hx'
              cases hx'
              rw [he] at hx''
              cases hx''
            · exact ⟨x, g', hx, hx', hx''⟩)
        rw [hlen] at this
        exact this
    · have hg' : isGen m i = false := by simpa using hg
      rw [genList_stored m hg', ← hlen]
      refine generateColumns_fails evaluate hval Q (pre ++ [i]) c hP' (by omega) ?_ ?_
      · intro j x h1 h2 h3
        by_cases hj : j = pre.length
        · subst hj
          rw [hi] at h3
          cases h3
          exact hg'
        · exact hno j x h1 (by omega) h3
      · obtain ⟨x, g', hx, hx', hx''⟩ := hf
        rcases List.mem_cons.mp hx with rfl | hx
        · rw [(isGen_iff m).mpr ⟨g', hx'⟩] at hg'
          cases hg'
        · exact ⟨x, g', hx, hx', hx''⟩

variable (P)

/-- The columns of a projection are put where they belong. -/
theorem generateAs_run (evaluate : ε → List κ → Option κ)
    (heval : ∀ i g, m.generated[i]? = some (some g) → i ∈ P → evaluate g.expr ((storedOf m P).map val) = some (val i)) (n : Nat)
    (hn : n ≤ P.length) (hno : NoGen m P n P.length) :
    generateAs evaluate (genList m 0 P) n ((storedOf m P).map val) = .ok ((P.take n).map val) := by
  obtain ⟨c', h1, h4, h5⟩ := generateColumns_run m val evaluate heval P [] 0 rfl (Nat.le_refl _) (fun j i _ h _ => absurd h (by simp))
  have hc := h5 n (Nat.zero_le _) hno
  have h2 := addStored_run m val P hn _ c' rfl hc fun j i h h'' h' => h4 j i h (by omega) h'
  simp only [List.length_nil, List.take_zero, List.countP_nil, List.map_nil] at h1
  unfold generateAs
  rw [h1]
  simp only
  rw [h2]
  simp only [List.length_take, List.length_map]
  rw [if_pos (by omega)]
  congr 1
  rw [List.take_of_length_le (by simp)]

theorem generateAs_fails (evaluate : ε → List κ → Option κ)
    (hval : ∀ i g v, m.generated[i]? = some (some g) → i ∈ P → evaluate g.expr ((storedOf m P).map val) = some v → v = val i) (n : Nat)
    (hf : ∃ i g, i ∈ P ∧ m.generated[i]? = some (some g) ∧ evaluate g.expr ((storedOf m P).map val) = none) :
    generateAs evaluate (genList m 0 P) n ((storedOf m P).map val) = .error .error := by
  have h1 := generateColumns_fails m val evaluate hval P [] 0 rfl (Nat.le_refl _) (fun j i _ h _ => absurd h (by simp)) hf
  simp only [List.length_nil, List.take_zero, List.countP_nil, List.map_nil] at h1
  unfold generateAs
  rw [h1]

end Generate

section Plan
variable {m : Metadata ε} {qs : List Column} {bs : List ErrorBound} {gs : List (Option (Generated ε))}

theorem generatedFields_tail {i : Nat} {P : List Nat} (h : GeneratedFieldsIn m (i :: P)) : GeneratedFieldsIn m P :=
  fun j hj => h j (List.mem_cons_of_mem _ hj)

/-- One step of the loop over the columns. -/
theorem planColumns_cons {env : Env ε} {schema : List Column} {k i : Nat} {P : List Nat} {r : List JoinColumn × List Nat × List (Nat × ε)}
    (h : planColumns env m schema k (i :: P) = .ok r) :
    ∃ c gen o f g, m.querySchema[i]? = some c ∧ m.generated[i]? = some gen ∧ planColumns env m schema (k + 1) P = .ok (o, f, g) ∧
      ((c.type = .timestamp ∧ r = (.timestamp :: o, f, g)) ∨
        (c.type ≠ .timestamp ∧ c.type = .string ∧ r = (.tag c.name :: o, f, g)) ∨
        (c.type ≠ .timestamp ∧ c.type ≠ .string ∧ ∃ e, gen = some e ∧ convertible schema (env.refs e.expr) = true ∧
          r = (o, f, (k, e.expr) :: g)) ∨
        (c.type ≠ .timestamp ∧ c.type ≠ .string ∧ gen = none ∧ ∃ j, indexOf m.schema c.name = some j ∧ r = (.field :: o, j :: f, g))) := by
  unfold planColumns at h
  split at h
  rotate_left
  · cases h
  rename_i c gen hc hgen
  rcases hrest : planColumns env m schema (k + 1) P with e | ⟨o, f, g⟩
  · rw [hrest] at h
    exfalso
    simp only [bind, Except.bind] at h
    split at h
    · cases h
    · split at h
      · cases h
      · split at h
        · split at h <;> cases h
        · split at h <;> cases h
  · rw [hrest] at h
    refine ⟨c, gen, o, f, g, hc, hgen, rfl, ?_⟩
    simp only [bind, Except.bind, pure, Except.pure, throw, throwThe, MonadExceptOf.throw] at h
    split at h
    · rename_i ht
      cases h
      exact .inl ⟨ht, rfl⟩
    · rename_i ht
      split at h
      · rename_i hs
        cases h
        exact .inr (.inl ⟨ht, hs, rfl⟩)
      · rename_i hs
        split at h
        · rename_i e
          split at h
          · rename_i hconv
            cases h
            exact .inr (.inr (.inl ⟨ht, hs, e, rfl, hconv, rfl⟩))
          · cases h
        · split at h
          · cases h
          · rename_i j hj
            cases h
            exact .inr (.inr (.inr ⟨ht, hs, rfl, j, hj, rfl⟩))

theorem planColumns_generate {env : Env ε} {schema : List Column} : ∀ {P : List Nat} {k : Nat}
    {o : List JoinColumn} {f : List Nat} {g : List (Nat × ε)}, GeneratedFieldsIn m P → planColumns env m schema k P = .ok (o, f, g) →
    g = genList m k P ∧ (∀ i ∈ P, ∃ c gen, m.querySchema[i]? = some c ∧ m.generated[i]? = some gen) ∧
      ∀ i e, i ∈ P → m.generated[i]? = some (some e) → convertible schema (env.refs e.expr) = true
  | [], k, o, f, g, _, h => by
    simp only [planColumns, Except.ok.injEq, Prod.mk.injEq] at h
    simp [genList, h.2.2]
  | i :: P, k, o, f, g, hfields, h => by
    obtain ⟨c, gen, o', f', g', hc, hgen, hrest, hcase⟩ := planColumns_cons h
    obtain ⟨h1, h2, h3⟩ := planColumns_generate (generatedFields_tail hfields) hrest
    have hnot : ∀ e, gen = some e → c.type ≠ .timestamp ∧ c.type ≠ .string := by
      rintro e rfl
      exact hfields i (by simp) e c hgen hc
    refine ⟨?_, ?_, ?_⟩
    · rcases hcase with ⟨ht, hr⟩ | ⟨_, hs, hr⟩ | ⟨_, _, e, rfl, _, hr⟩ | ⟨_, _, rfl, j, _, hr⟩
      · cases gen with
        | none => cases hr; rw [genList, hgen]; exact h1
        | some e => exact ((hnot e rfl).1 ht).elim
      · cases gen with
        | none => cases hr; rw [genList, hgen]; exact h1
        | some e => exact ((hnot e rfl).2 hs).elim
      · cases hr; rw [genList, hgen, h1]
      · cases hr; rw [genList, hgen]; exact h1
    · intro x hx
      rcases List.mem_cons.mp hx with rfl | hx
      · exact ⟨c, gen, hc, hgen⟩
      · exact h2 x hx
    · intro x e hx hxe
      rcases List.mem_cons.mp hx with rfl | hx
      · rw [hgen] at hxe
        cases hxe
        rcases hcase with ⟨ht, hr⟩ | ⟨_, hs, hr⟩ | ⟨_, _, e', he', hconv, hr⟩ | ⟨_, _, he', _⟩
        · exact ((hnot e rfl).1 ht).elim
        · exact ((hnot e rfl).2 hs).elim
        · cases he'
          exact hconv
        · cases he'
      · exact h3 x e hx hxe

/-- The names of the stored columns are different if the names of all columns are. -/
theorem schema_nodup (hm : Consistent qs bs gs m) (hq : (qs.map (·.name)).Nodup) : (m.schema.map (·.name)).Nodup := by
  rw [List.nodup_iff_getElem?_ne_getElem?]
  intro a b hab hb heq
  rw [List.length_map] at hb
  have ha : a < m.schema.length := by omega
  have ha' : a < m.querySchemaToSchema.length := by rw [← hm.length.1]; exact ha
  have hb' : b < m.querySchemaToSchema.length := by rw [← hm.length.1]; exact hb
  obtain ⟨h1, h2, _⟩ := hm.column a _ (List.getElem?_eq_getElem ha')
  obtain ⟨h3, h4, _⟩ := hm.column b _ (List.getElem?_eq_getElem hb')
  rw [List.getElem?_map, List.getElem?_map, h2, h4, ← List.getElem?_map, ← List.getElem?_map] at heq
  have hinj := List.nodup_iff_getElem?_ne_getElem?.mp hq
  have hlt : m.querySchemaToSchema[a] < m.querySchemaToSchema[b] := List.pairwise_iff_getElem.mp hm.increasing a b ha' hb' hab
  exact hinj _ _ hlt (by simpa using h3) heq

/-- Where a column that is not generated is stored. -/
theorem stored_column (hm : Consistent qs bs gs m) {i : Nat} {c : Column} (hc : qs[i]? = some c) (hg : gs[i]? = some none) :
    ∃ j : Nat, m.querySchemaToSchema[j]? = some i ∧ m.schema[j]? = some c := by
  obtain ⟨j, hj⟩ := List.mem_iff_getElem?.mp ((hm.positions i).mpr hg)
  exact ⟨j, hj, by rw [(hm.column j i hj).2.1, hc]⟩

theorem tagIndices_valid (hm : Consistent qs bs gs m) : ∀ i ∈ m.tagIndices, i < m.schema.length := by
  intro i hi
  obtain ⟨c, hc, _⟩ := (hm.tags i).mp hi
  exact (List.getElem?_eq_some_iff.mp hc).1

theorem tagNames_get (hm : Consistent qs bs gs m) {k j : Nat} {c : Column} (hk : m.tagIndices[k]? = some j) (hj : m.schema[j]? = some c) :
    (tagNamesOf m)[k]? = some c.name := by
  rw [tagNamesOf, List.getElem?_map, (filterMap_getElem?_of_valid m.schema m.tagIndices (tagIndices_valid hm)).2 k j hk, hj]
  rfl

theorem tagNames_length (hm : Consistent qs bs gs m) : (tagNamesOf m).length = m.tagIndices.length := by
  rw [tagNamesOf, List.length_map, (filterMap_getElem?_of_valid m.schema m.tagIndices (tagIndices_valid hm)).1]

theorem nodup_of_increasing {l : List Nat} (h : l.Pairwise (· < ·)) : l.Nodup := h.imp fun h => Nat.ne_of_lt h

theorem tagNames_nodup (hm : Consistent qs bs gs m) (hn : (m.schema.map (·.name)).Nodup) : (tagNamesOf m).Nodup := by
  rw [List.nodup_iff_getElem?_ne_getElem?]
  intro a b hab hb heq
  have hlen := tagNames_length hm
  have ha' : a < m.tagIndices.length := by omega
  have hb' : b < m.tagIndices.length := by omega
  obtain ⟨c, hc, _⟩ := (hm.tags _).mp (List.getElem_mem ha')
  obtain ⟨d, hd, _⟩ := (hm.tags _).mp (List.getElem_mem hb')
  rw [tagNames_get hm (List.getElem?_eq_getElem ha') hc, tagNames_get hm (List.getElem?_eq_getElem hb') hd] at heq
  have hlt : m.tagIndices[a] < m.tagIndices[b] := List.pairwise_iff_getElem.mp hm.tagsIncreasing a b ha' hb' hab
  refine List.nodup_iff_getElem?_ne_getElem?.mp hn _ _ hlt (by simpa using (List.getElem?_eq_some_iff.mp hd).1) ?_
  rw [List.getElem?_map, List.getElem?_map, hc, hd]
  exact heq

theorem findIdx_of_nodup {α : Type} [DecidableEq α] {l : List α} (h : l.Nodup) {k : Nat} {a : α} (hk : l[k]? = some a) :
    l.findIdx? (fun x => x = a) = some k := by
  rw [List.findIdx?_eq_some_iff_getElem]
  obtain ⟨hlt, hget⟩ := List.getElem?_eq_some_iff.mp hk
  refine ⟨hlt, by simp [hget], ?_⟩
  intro j hj
  simp only [decide_eq_true_eq]
  intro he
  have := (List.Nodup.getElem_inj_iff h (i := j) (j := k) (hi := by omega) (hj := hlt)).mp (by rw [he, hget])
  omega

/-- The columns of the join hold the stored columns of the projection. -/
theorem planColumns_cells (hm : Consistent m.querySchema bs m.generated m) (hn : (m.schema.map (·.name)).Nodup) {env : Env ε}
    {schema : List Column} (row : TableRow) (htags : row.tags.length = m.tagIndices.length) (extra : List Nat) :
    ∀ {P : List Nat} {k : Nat} {o : List JoinColumn} {f : List Nat} {g : List (Nat × ε)}, GeneratedFieldsIn m P → planColumns env m schema k P = .ok (o, f, g) →
    ∃ cells, cellsOf (tagNamesOf m) row o (f ++ extra) = some cells ∧
      (storedOf m P).map (fun i => (m.querySchema[i]?).bind fun c => storedCell m row c.name) = cells.map some
  | [], k, o, f, g, _, h => by
    simp only [planColumns, Except.ok.injEq, Prod.mk.injEq] at h
    obtain ⟨rfl, rfl, rfl⟩ := h
    exact ⟨[], rfl, rfl⟩
  | i :: P, k, o, f, g, hfields, h => by
    obtain ⟨c, gen, o', f', g', hc, hgen, hrest, hcase⟩ := planColumns_cons h
    obtain ⟨cells, h1, h2⟩ := planColumns_cells hm hn row htags extra (generatedFields_tail hfields) hrest
    have hnot : ∀ e, gen = some e → c.type ≠ .timestamp ∧ c.type ≠ .string := by
      rintro e rfl
      exact hfields i (by simp) e c hgen hc
    -- A stored column.
    have hstep : ∀ cell, gen = none → storedCell m row c.name = some cell →
        (storedOf m (i :: P)).map (fun i => (m.querySchema[i]?).bind fun c => storedCell m row c.name) = (cell :: cells).map some := by
      rintro cell rfl hcell
      have hg : isGen m i = false := by unfold isGen; rw [hgen]
      rw [storedOf, List.filter_cons_of_pos (by simp [hg]), List.map_cons, hc]
      simp only [Option.bind_some, hcell, List.map_cons, List.cons.injEq, true_and]
      exact h2
    rcases hcase with ⟨ht, hr⟩ | ⟨hnt, hs, hr⟩ | ⟨hnt, hns, e, rfl, hconv, hr⟩ | ⟨hnt, hns, rfl, j, hj, hr⟩
    · cases gen with
      | some e => exact ((hnot e rfl).1 ht).elim
      | none =>
        cases hr
        obtain ⟨j, _, hj⟩ := stored_column hm hc hgen
        refine ⟨.time row.time :: cells, by simp [cellsOf, h1], hstep _ rfl ?_⟩
        rw [storedCell, indexOf_nodup hn hj]
        simp [hj, ht]
    · cases gen with
      | some e => exact ((hnot e rfl).2 hs).elim
      | none =>
        cases hr
        obtain ⟨j, _, hj⟩ := stored_column hm hc hgen
        obtain ⟨kk, hkk⟩ := List.mem_iff_getElem?.mp ((hm.tags j).mpr ⟨c, hj, hs⟩)
        have hlt : kk < row.tags.length := by rw [htags]; exact (List.getElem?_eq_some_iff.mp hkk).1
        have hidx : (tagNamesOf m).findIdx? (fun x => x == c.name) = some kk :=
          findIdx_of_nodup (tagNames_nodup hm hn) (tagNames_get hm hkk hj)
        have htag : row.tags[kk]? = some row.tags[kk] := List.getElem?_eq_getElem hlt
        refine ⟨.tag row.tags[kk] :: cells, ?_, hstep _ rfl ?_⟩
        · rw [cellsOf, hidx]
          simp only [Option.bind_eq_bind, Option.bind_some, htag, h1]
          rfl
        · rw [storedCell, indexOf_nodup hn hj]
          simp only [hj]
          rw [if_neg (by rw [hs]; simp), if_neg (by rw [hs]; simp), findIdx_of_nodup (nodup_of_increasing hm.tagsIncreasing) hkk]
          simp only [htag, Option.map_some]
    · cases hr
      refine ⟨cells, h1, ?_⟩
      have hg : isGen m i = true := (isGen_iff m).mpr ⟨e, hgen⟩
      rw [storedOf, List.filter_cons_of_neg (by simp [hg])]
      exact h2
    · cases hr
      obtain ⟨j', _, hj'⟩ := stored_column hm hc hgen
      have hjj := indexOf_nodup hn hj'
      rw [hj] at hjj
      cases hjj
      have htype : c.type = .value := by
        rcases hm.covered j (List.getElem?_eq_some_iff.mp hj').1 with rfl | h | h
        · obtain ⟨d, hd, hd'⟩ := (hm.timestamp m.timestampIndex).mpr rfl
          rw [hj'] at hd
          cases hd
          exact absurd hd' hnt
        · obtain ⟨d, hd, hd'⟩ := (hm.fields j).mp h
          rw [hj'] at hd
          cases hd
          exact hd'
        · obtain ⟨d, hd, hd'⟩ := (hm.tags j).mp h
          rw [hj'] at hd
          cases hd
          exact absurd hd' hns
      refine ⟨.value (row.values j) :: cells, by simp [cellsOf, h1], hstep _ rfl ?_⟩
      rw [storedCell, hj]
      simp [hj', htype]

/-- What is needed to read the columns. -/
theorem planColumns_answerable (hm : Consistent m.querySchema bs m.generated m) (hn : (m.schema.map (·.name)).Nodup) {env : Env ε}
    {schema : List Column} :
    ∀ {P : List Nat} {k : Nat} {o : List JoinColumn} {f : List Nat} {g : List (Nat × ε)}, GeneratedFieldsIn m P → planColumns env m schema k P = .ok (o, f, g) →
    (∀ name, .tag name ∈ o → name ∈ tagNamesOf m) ∧ o.count .field = f.length ∧ (∀ j ∈ f, j ∈ m.fieldIndices) ∧
      ((storedOf m P).length = o.length)
  | [], k, o, f, g, _, h => by
    simp only [planColumns, Except.ok.injEq, Prod.mk.injEq] at h
    obtain ⟨rfl, rfl, rfl⟩ := h
    simp [storedOf]
  | i :: P, k, o, f, g, hfields, h => by
    obtain ⟨c, gen, o', f', g', hc, hgen, hrest, hcase⟩ := planColumns_cons h
    obtain ⟨h1, h2, h3, h4⟩ := planColumns_answerable hm hn (generatedFields_tail hfields) hrest
    have hnot : ∀ e, gen = some e → c.type ≠ .timestamp ∧ c.type ≠ .string := by
      rintro e rfl
      exact hfields i (by simp) e c hgen hc
    have hlen : gen = none → (storedOf m (i :: P)).length = o'.length + 1 := by
      rintro rfl
      have hg : isGen m i = false := by unfold isGen; rw [hgen]
      rw [storedOf, List.filter_cons_of_pos (by simp [hg]), List.length_cons, ← h4]
      rfl
    rcases hcase with ⟨ht, hr⟩ | ⟨hnt, hs, hr⟩ | ⟨hnt, hns, e, rfl, hconv, hr⟩ | ⟨hnt, hns, rfl, j, hj, hr⟩
    · cases gen with
      | some e => exact ((hnot e rfl).1 ht).elim
      | none =>
        cases hr
        refine ⟨by simpa using h1, by simpa using h2, h3, by simpa using hlen rfl⟩
    · cases gen with
      | some e => exact ((hnot e rfl).2 hs).elim
      | none =>
        cases hr
        obtain ⟨j, _, hj⟩ := stored_column hm hc hgen
        obtain ⟨kk, hkk⟩ := List.mem_iff_getElem?.mp ((hm.tags j).mpr ⟨c, hj, hs⟩)
        refine ⟨?_, by simpa using h2, h3, by simpa using hlen rfl⟩
        intro name hname
        rcases List.mem_cons.mp hname with h | h
        · cases h
          exact List.mem_of_getElem? (tagNames_get hm hkk hj)
        · exact h1 name h
    · cases hr
      have hg : isGen m i = true := (isGen_iff m).mpr ⟨e, hgen⟩
      refine ⟨h1, h2, h3, ?_⟩
      rw [storedOf, List.filter_cons_of_neg (by simp [hg])]
      exact h4
    · cases hr
      obtain ⟨j', _, hj'⟩ := stored_column hm hc hgen
      have hjj := indexOf_nodup hn hj'
      rw [hj] at hjj
      cases hjj
      refine ⟨by simpa using h1, by simpa using h2, ?_, by simpa using hlen rfl⟩
      intro x hx
      rcases List.mem_cons.mp hx with rfl | hx
      · rcases hm.covered x (List.getElem?_eq_some_iff.mp hj').1 with rfl | h | h
        · obtain ⟨d, hd, hd'⟩ := (hm.timestamp m.timestampIndex).mpr rfl
          rw [hj'] at hd
          cases hd
          exact absurd hd' hnt
        · exact h
        · obtain ⟨d, hd, hd'⟩ := (hm.tags x).mp h
          rw [hj'] at hd
          cases hd
          exact absurd hd' hns
      · exact h3 x hx

/-- The columns of the join. -/
theorem joinSchema_eq {P : List Nat} (h : ∀ i ∈ P, ∃ c gen, m.querySchema[i]? = some c ∧ m.generated[i]? = some gen) :
    joinSchema m P = (storedOf m P).filterMap fun i => m.querySchema[i]? := by
  induction P with
  | nil => rfl
  | cons i P ih =>
    have ih := ih fun j hj => h j (List.mem_cons_of_mem _ hj)
    obtain ⟨c, gen, hc, hgen⟩ := h i (by simp)
    cases gen with
    | none =>
      have hg : isGen m i = false := by unfold isGen; rw [hgen]
      rw [joinSchema, storedOf, List.filter_cons_of_pos (by simp [hg])]
      rw [List.filterMap_cons_some (b := c) (by simp [hgen, hc]), List.filterMap_cons_some (b := c) hc]
      exact congrArg _ ih
    | some e =>
      have hg : isGen m i = true := (isGen_iff m).mpr ⟨e, hgen⟩
      rw [joinSchema, storedOf, List.filter_cons_of_neg (by simp [hg]), List.filterMap_cons_none (by simp [hgen])]
      exact ih

theorem joinSchema_cons (i : Nat) (P : List Nat) : joinSchema m (i :: P) = joinSchema m [i] ++ joinSchema m P := by
  simp only [joinSchema, List.filterMap_cons, List.filterMap_nil]
  split <;> simp

/-- There are only as many columns as in the schema if all generated columns are fields. -/
theorem planColumns_length {env : Env ε} {schema : List Column} : ∀ {P : List Nat} {k : Nat} {o : List JoinColumn} {f : List Nat}
    {g : List (Nat × ε)}, planColumns env m schema k P = .ok (o, f, g) → (joinSchema m P).length ≤ o.length ∧
      (o.length = (joinSchema m P).length → GeneratedFieldsIn m P)
  | [], k, o, f, g, h => by
    simp only [planColumns, Except.ok.injEq, Prod.mk.injEq] at h
    obtain ⟨rfl, rfl, rfl⟩ := h
    simp [joinSchema, GeneratedFieldsIn]
  | i :: P, k, o, f, g, h => by
    obtain ⟨c, gen, o', f', g', hc, hgen, hrest, hcase⟩ := planColumns_cons h
    obtain ⟨h1, h2⟩ := planColumns_length hrest
    have hlen : (joinSchema m (i :: P)).length = (if gen = none then 1 else 0) + (joinSchema m P).length := by
      rw [joinSchema_cons, List.length_append]
      congr 1
      cases gen <;> simp [joinSchema, hgen, hc]
    rw [hlen]
    have hstep : (∀ e, gen = some e → c.type ≠ .timestamp ∧ c.type ≠ .string) → o'.length = (joinSchema m P).length →
        GeneratedFieldsIn m (i :: P) := by
      intro hnot hlen j hj g d hg hd
      rcases List.mem_cons.mp hj with rfl | hj
      · rw [hgen] at hg
        rw [hc] at hd
        cases hg
        cases hd
        exact hnot g rfl
      · exact h2 hlen j hj g d hg hd
    rcases hcase with ⟨ht, hr⟩ | ⟨hnt, hs, hr⟩ | ⟨hnt, hns, e, rfl, hconv, hr⟩ | ⟨hnt, hns, rfl, j, hj, hr⟩
    · cases hr
      cases gen with
      | none => simp; exact ⟨by omega, fun h => hstep (by simp) (by omega)⟩
      | some e => simp; exact ⟨by omega, by omega⟩
    · cases hr
      cases gen with
      | none => simp; exact ⟨by omega, fun h => hstep (by simp) (by omega)⟩
      | some e => simp; exact ⟨by omega, by omega⟩
    · cases hr
      simp only [reduceCtorEq, if_false, Nat.zero_add]
      exact ⟨h1, fun h => hstep (fun _ _ => ⟨hnt, hns⟩) h⟩
    · cases hr
      simp
      exact ⟨by omega, fun h => hstep (by simp) (by omega)⟩

end Plan

end ModelarDB.Lemmas
