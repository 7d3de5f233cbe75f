import Verif.Lemmas.TableNames
import Verif.Spec.DataFolder
import Verif.Lemmas.TableDefinition
import Mathlib.Data.List.Nodup
import Mathlib.Data.List.Induction
/-
Lemmas about saving and loading table definitions.
-/
namespace ModelarDB.Lemmas
open Model Model.TableDefinition Model.DataFolder Spec

variable {ε : Type}

theorem literal_of_noQuote : ∀ cs : List Char, '\'' ∉ cs → literal cs = some cs
  | [], _ => rfl
  | c :: cs, h => by
    simp only [List.mem_cons, not_or] at h
    have ih := literal_of_noQuote cs h.2
    unfold literal
    split
    · rename_i heq
      cases heq
    · rename_i heq
      injection heq with h1 h2
      exact absurd h1.symm h.1
    · rename_i heq
      injection heq with h1 h2
      exact absurd h1.symm h.1
    · rename_i heq
      injection heq with h1 h2
      subst h1 h2
      rw [ih]
      rfl

theorem mapM_perm {τ σ : Type} (f : τ → Option σ) {l l' : List τ} (h : l.Perm l') :
    ∀ {s : List σ}, l.mapM f = some s → ∃ s', l'.mapM f = some s' ∧ s.Perm s' := by
  induction h with
  | nil =>
    intro s hs
    exact ⟨s, hs, List.Perm.refl _⟩
  | cons x _ ih =>
    intro s hs
    simp only [List.mapM_cons, Option.bind_eq_bind, Option.bind_eq_some_iff, Option.pure_def, Option.some.injEq] at hs
    obtain ⟨y, hy, t, ht, rfl⟩ := hs
    obtain ⟨t', ht', hp⟩ := ih ht
    exact ⟨y :: t', by simp [List.mapM_cons, hy, ht'], hp.cons y⟩
  | swap x y l =>
    intro s hs
    simp only [List.mapM_cons, Option.bind_eq_bind, Option.bind_eq_some_iff, Option.pure_def, Option.some.injEq] at hs
    obtain ⟨a, ha, t, ⟨b, hb, u, hu, rfl⟩, rfl⟩ := hs
    exact ⟨b :: a :: u, by simp [List.mapM_cons, ha, hb, hu], List.Perm.swap _ _ _⟩
  | trans _ _ ih1 ih2 =>
    intro s hs
    obtain ⟨t, ht, hp⟩ := ih1 hs
    obtain ⟨u, hu, hq⟩ := ih2 ht
    exact ⟨u, hu, hp.trans hq⟩

theorem tryFromExpr_perm {env env' : Env ε} (henv : ∀ e, (env.refs e).Perm (env'.refs e)) {schema : List Column} {e : ε}
    {g : Generated ε} (h : tryFromExpr env schema e = .ok g) :
    ∃ g', tryFromExpr env' schema e = .ok g' ∧ SameGenerated g g' := by
  unfold tryFromExpr at h
  split at h
  · cases h
  · rename_i s hs
    injection h with h
    subst h
    obtain ⟨s', hs', hp⟩ := mapM_perm _ (henv e) hs
    exact ⟨⟨e, s'⟩, by simp [tryFromExpr, hs'], rfl, hp⟩

theorem tryFromExpr_expr {env : Env ε} {schema : List Column} {e : ε} {g : Generated ε} (h : tryFromExpr env schema e = .ok g) :
    g.expr = e := by
  unfold tryFromExpr at h
  split at h
  · cases h
  · injection h with h
    subst h
    rfl

theorem meaningful_absolute {v : FVal} (h : Meaningful (.absolute v)) :
    v.eq (.fin false 0) = false ∧ ErrorBound.tryNewAbsolute v = some (.absolute v) := by
  obtain ⟨q, rfl, hq⟩ := h
  have h1 : ¬q < 0 := not_lt.mpr hq.le
  have h2 : ¬q = 0 := hq.ne'
  simp [FVal.eq, FVal.signed, ErrorBound.tryNewAbsolute, FVal.isFinite, FVal.le, FVal.lt, h1, h2]

theorem meaningful_relative {v : FVal} (h : Meaningful (.relative v)) :
    v.eq (.fin false 0) = false ∧ ErrorBound.tryNewRelative v = some (.relative v) := by
  obtain ⟨q, rfl, hq, hq'⟩ := h
  have h2 : ¬q = 0 := hq.ne'
  simp [FVal.eq, FVal.signed, ErrorBound.tryNewRelative, FVal.le, FVal.lt, h2, hq]
  exact fun h => le_antisymm hq' h

/-- The error bound that is loaded for a column. -/
def loadedBound (m : Metadata ε) (c : Column) : ErrorBound :=
  if c.type = .value then
    match indexOf m.schema c.name with
    | some i => (m.errorBounds[i]?).getD .lossless
    | none => .lossless
  else .lossless

theorem asI16_of_lt {n : Nat} (h : n < 32768) : asI16 n = n := by
  unfold asI16
  rw [Int.bmod_eq_of_le] <;> omega

theorem setAt_length {τ : Type} (pre suf : List τ) (x y : τ) (h : pre.length < 32768) :
    setAt (pre ++ x :: suf) (asI16 pre.length) y = .ok (pre ++ y :: suf) := by
  rw [asI16_of_lt h]
  unfold setAt
  rw [if_pos ⟨by omega, by simp⟩, Int.toNat_natCast, List.set_append_right _ _ (Nat.le_refl _), Nat.sub_self]
  rfl

theorem savedBound_loaded (m : Metadata ε) (hm : ∀ b ∈ m.errorBounds, Meaningful b) (c : Column) (hc : c.type = .value) :
    ((savedBound m c).1.eq (.fin false 0) = true ∧ loadedBound m c = .lossless) ∨
    ((savedBound m c).1.eq (.fin false 0) = false ∧
      (if (savedBound m c).2 then ErrorBound.tryNewRelative (savedBound m c).1 else ErrorBound.tryNewAbsolute (savedBound m c).1) =
        some (loadedBound m c)) := by
  have hz : (FVal.fin false 0).eq (.fin false 0) = true := by decide +kernel
  unfold savedBound loadedBound
  rw [if_pos hc]
  cases h1 : indexOf m.schema c.name with
  | none => exact .inl ⟨hz, rfl⟩
  | some i =>
    rcases h2 : m.errorBounds[i]? with _ | b
    · simp only [h2]
      exact .inl ⟨hz, rfl⟩
    · have := hm b (List.mem_of_getElem? h2)
      simp only [h2]
      cases b with
      | absolute v => exact .inr (meaningful_absolute this)
      | relative v => exact .inr (meaningful_relative this)
      | lossless => exact .inl ⟨hz, rfl⟩

theorem boundsOfRows_skip (r : FieldRow ε) (rs : List (FieldRow ε)) (l : List ErrorBound) (h : r.value.eq (.fin false 0) = true) :
    boundsOfRows (r :: rs) l = boundsOfRows rs l := by
  rw [boundsOfRows, h]
  rfl

theorem boundsOfRows_set (r : FieldRow ε) (rs : List (FieldRow ε)) (l l' : List ErrorBound) (b : ErrorBound)
    (h : r.value.eq (.fin false 0) = false)
    (hb : (if r.relative then ErrorBound.tryNewRelative r.value else ErrorBound.tryNewAbsolute r.value) = some b)
    (hl : setAt l r.index b = .ok l') : boundsOfRows (r :: rs) l = boundsOfRows rs l' := by
  rw [boundsOfRows, h, hb]
  simp only [Bool.not_false, if_true, hl]

theorem boundsOfRows_fieldRows (m : Metadata ε) {N : Nat} (hN : N < 32768) (hm : ∀ b ∈ m.errorBounds, Meaningful b)
    (suf : List ErrorBound) : ∀ (cs : List Column) (pre : List ErrorBound), pre.length + cs.length ≤ N →
      boundsOfRows (fieldRows m pre.length cs) (pre ++ (List.replicate cs.length .lossless ++ suf)) =
        .ok (pre ++ (cs.map (loadedBound m) ++ suf))
  | [], pre, _ => by simp [fieldRows, boundsOfRows]
  | c :: cs, pre, h => by
    simp only [List.length_cons] at h
    have ih := fun b => boundsOfRows_fieldRows m hN hm suf cs (pre ++ [b])
      (by rw [List.length_append, List.length_singleton]; omega)
    simp only [List.length_append, List.length_cons, List.length_nil, Nat.zero_add, List.append_assoc, List.cons_append,
      List.nil_append] at ih
    simp only [List.length_cons, List.replicate_succ, List.map_cons, List.cons_append]
    rw [fieldRows]
    by_cases hc : c.type = .value
    · rw [if_pos hc]
      rcases savedBound_loaded m hm c hc with ⟨h1, h2⟩ | ⟨h1, h2⟩
      · rw [h2]
        refine (boundsOfRows_skip _ _ _ ?_).trans (ih _)
        exact h1
      · refine (boundsOfRows_set _ _ _ _ (loadedBound m c) ?_ ?_ ?_).trans (ih _)
        · exact h1
        · exact h2
        · have hlt : pre.length < 32768 := by omega
          simp only [setAt_length pre _ _ _ hlt]
    · rw [if_neg hc, ih]
      have : loadedBound m c = .lossless := by unfold loadedBound; rw [if_neg hc]
      rw [this]

theorem generatedOfRows_skip (env : Env ε) (schema : List Column) (r : FieldRow ε) (rs : List (FieldRow ε))
    (l : List (Option (Generated ε))) (h : r.expr = none) :
    generatedOfRows env schema (r :: rs) l = generatedOfRows env schema rs l := by
  rw [generatedOfRows, h]

theorem generatedOfRows_set (env : Env ε) (schema : List Column) (r : FieldRow ε) (rs : List (FieldRow ε))
    (l l' : List (Option (Generated ε))) (e : ε) (g : Generated ε) (h : r.expr = some e) (hg : tryFromExpr env schema e = .ok g)
    (hl : setAt l r.index (some g) = .ok l') : generatedOfRows env schema (r :: rs) l = generatedOfRows env schema rs l' := by
  rw [generatedOfRows, h]
  simp only [hg, hl]

theorem generatedOfRows_fieldRows (m : Metadata ε) {N : Nat} (hN : N < 32768) {env env' : Env ε}
    (henv : ∀ e, (env.refs e).Perm (env'.refs e))
    (hm : ∀ (i : Nat) (g : Generated ε), m.generated[i]? = some (some g) →
      (∃ c, m.querySchema[i]? = some c ∧ c.type = .value) ∧ tryFromExpr env m.querySchema g.expr = .ok g)
    (suf : List (Option (Generated ε))) :
    ∀ (cs : List Column) (gs pre : List (Option (Generated ε))), pre.length + cs.length ≤ N → gs.length = cs.length →
      (∀ n : Nat, n < cs.length → m.querySchema[pre.length + n]? = cs[n]?) →
      (∀ n : Nat, n < gs.length → m.generated[pre.length + n]? = gs[n]?) →
      ∃ gs', generatedOfRows env' m.querySchema (fieldRows m pre.length cs) (pre ++ (List.replicate cs.length none ++ suf)) =
          .ok (pre ++ (gs' ++ suf)) ∧ List.Forall₂ (Option.Rel SameGenerated) gs gs'
  | [], [], pre, _, _, _, _ => ⟨[], by simp [fieldRows, generatedOfRows], .nil⟩
  | [], _ :: _, _, _, h, _, _ => by simp at h
  | _ :: _, [], _, _, h, _, _ => by simp at h
  | c :: cs, g :: gs, pre, h, hl, hd1, hd2 => by
    simp only [List.length_cons] at h
    have hc : m.querySchema[pre.length]? = some c := hd1 0 (by simp)
    have hg : m.generated[pre.length]? = some g := hd2 0 (by simp)
    have ih := fun b => generatedOfRows_fieldRows m hN henv hm suf cs gs (pre ++ [b])
      (by rw [List.length_append, List.length_singleton]; omega) (by simpa using hl)
      (by
        intro n hn
        have := hd1 (n + 1) (by simpa using hn)
        simpa [Nat.add_assoc, Nat.add_comm 1 n] using this)
      (by
        intro n hn
        have := hd2 (n + 1) (by simpa using hn)
        simpa [Nat.add_assoc, Nat.add_comm 1 n] using this)
    simp only [List.length_append, List.length_cons, List.length_nil, Nat.zero_add, List.append_assoc, List.cons_append,
      List.nil_append] at ih
    simp only [List.length_cons, List.replicate_succ]
    rw [fieldRows]
    cases g with
    | none =>
      obtain ⟨gs', h1, h2⟩ := ih none
      refine ⟨none :: gs', ?_, .cons .none h2⟩
      by_cases ht : c.type = .value
      · rw [if_pos ht]
        refine (generatedOfRows_skip _ _ _ _ _ ?_).trans h1
        simp [hg]
      · rw [if_neg ht]
        exact h1
    | some g =>
      obtain ⟨⟨c', hc', ht⟩, hgo⟩ := hm _ _ hg
      rw [hc] at hc'
      injection hc' with hc'
      subst hc'
      obtain ⟨g', hg', hsame⟩ := tryFromExpr_perm henv hgo
      obtain ⟨gs', h1, h2⟩ := ih (some g')
      refine ⟨some g' :: gs', ?_, .cons (.some hsame) h2⟩
      rw [if_pos ht]
      refine (generatedOfRows_set _ _ _ _ _ _ g.expr g' ?_ hg' ?_).trans h1
      · simp [hg]
      · have hlt : pre.length < 32768 := by omega
        simp only [List.cons_append, setAt_length pre _ _ _ hlt]

theorem wg_congr : ∀ (i : Nat) (cs : List Column) (bs bs' : List ErrorBound) (gs gs' : List (Option (Generated ε))),
    List.Forall₂ (Option.Rel SameGenerated) gs gs' → bs.length = bs'.length →
    (∀ n : Nat, gs[n]? = some none → bs[n]? = bs'[n]?) → withoutGenerated i cs bs gs = withoutGenerated i cs bs' gs'
  | i, c :: cs, b :: bs, b' :: bs', _ :: _, _ :: _, .cons (a := g) (b := g') hg hgs, hl, hb => by
    have ih := wg_congr (i + 1) cs bs bs' _ _ hgs (by simpa using hl) fun n hn => hb (n + 1) hn
    unfold withoutGenerated
    rw [ih]
    cases hg with
    | none =>
      have := hb 0 rfl
      simp only [List.getElem?_cons_zero, Option.some.injEq] at this
      rw [this]
    | some _ => rfl
  | _, [], _, _, _, _, _, _, _ => by simp [withoutGenerated]
  | _, _ :: _, [], [], _, _, _, _, _ => by simp [withoutGenerated]
  | _, _ :: _, [], _ :: _, _, _, _, h, _ => by simp at h
  | _, _ :: _, _ :: _, [], _, _, _, h, _ => by simp at h
  | _, _ :: _, _ :: _, _ :: _, [], [], _, _, _ => by simp [withoutGenerated]

theorem forall₂_getElem?_none {gs gs' : List (Option (Generated ε))} (h : List.Forall₂ (Option.Rel SameGenerated) gs gs') (n : Nat) :
    gs[n]? = some none ↔ gs'[n]? = some none := by
  induction h generalizing n with
  | nil => simp
  | cons hg _ ih =>
    cases n with
    | zero => cases hg <;> simp
    | succ n => simpa using ih n

theorem checkGenerated_same {gs gs' : List (Option (Generated ε))} (h : List.Forall₂ (Option.Rel SameGenerated) gs gs')
    (hc : checkGenerated gs gs = .ok ()) : checkGenerated gs' gs' = .ok () := by
  rw [checkGenerated_ok] at hc ⊢
  intro g' hg' s hs
  rw [← forall₂_getElem?_none h]
  have : ∃ g, some g ∈ gs ∧ SameGenerated g g' := by
    clear hc hs
    induction h with
    | nil => simp at hg'
    | cons hg _ ih =>
      rcases List.mem_cons.mp hg' with rfl | hg'
      · cases hg with
        | some hg => exact ⟨_, List.mem_cons_self, hg⟩
      · obtain ⟨g, h1, h2⟩ := ih hg'
        exact ⟨g, List.mem_cons_of_mem _ h1, h2⟩
  obtain ⟨g, h1, h2⟩ := this
  exact hc g h1 s (h2.2.mem_iff.mpr hs)

/-- The position of a stored column is found by its name. -/
theorem indexOf_schema {qs : List Column} {bs : List ErrorBound} {gs : List (Option (Generated ε))} {m : Metadata ε}
    (hcon : Consistent qs bs gs m) (hnames : (qs.map (·.name)).Nodup) {j i : Nat} {c : Column}
    (hj : m.querySchemaToSchema[j]? = some i) (hc : qs[i]? = some c) : indexOf m.schema c.name = some j := by
  obtain ⟨hi, hs, _⟩ := hcon.column j i hj
  rw [hc] at hs
  unfold indexOf
  rw [List.findIdx?_eq_some_iff_getElem]
  obtain ⟨hjl, hjc⟩ := List.getElem?_eq_some_iff.mp hs
  refine ⟨hjl, by simp [hjc], ?_⟩
  intro k hk
  simp only [decide_eq_true_eq]
  intro hname
  have hkl : k < m.querySchemaToSchema.length := by
    have := hcon.length.1
    omega
  have hk' := List.getElem?_eq_getElem hkl
  obtain ⟨hil, hks, _⟩ := hcon.column k _ hk'
  have hkc : qs[m.querySchemaToSchema[k]]? = some m.schema[k] := by rw [← hks, List.getElem?_eq_getElem]
  obtain ⟨hcl, hcc⟩ := List.getElem?_eq_some_iff.mp hc
  obtain ⟨_, hkcc⟩ := List.getElem?_eq_some_iff.mp hkc
  have heq : m.querySchemaToSchema[k] = i := by
    have := hnames.getElem_inj_iff (i := m.querySchemaToSchema[k]) (j := i) (hi := by simpa using hil) (hj := by simpa using hcl)
    rw [← this]
    simp [hkcc, hcc, hname]
  obtain ⟨hjl', hji⟩ := List.getElem?_eq_some_iff.mp hj
  have := List.pairwise_iff_getElem.mp hcon.increasing k j hkl hjl' hk
  omega

theorem indicesOfType_length (t : DataType) (schema : List Column) :
    (indicesOfType schema t).length = schema.countP (fun c => c.type = t) := by
  unfold indicesOfType
  induction schema using List.reverseRecOn with
  | nil => rfl
  | append_singleton l c ih =>
    rw [List.length_append, List.length_singleton, List.range_succ, List.filter_append, List.length_append, List.countP_append, ← ih]
    congr 1
    · congr 1
      apply List.filter_congr
      intro i hi
      rw [List.getElem?_append_left (List.mem_range.mp hi)]
    · by_cases h : c.type = t <;> simp [h]

theorem wg_countP (t : DataType) : ∀ (i : Nat) (cs : List Column) (bs : List ErrorBound) (gs : List (Option (Generated ε))),
    cs.length = bs.length → cs.length = gs.length →
    (∀ (n : Nat) (g : Generated ε), gs[n]? = some (some g) → ∃ c, cs[n]? = some c ∧ c.type ≠ t) →
    (withoutGenerated i cs bs gs).1.countP (fun c => c.type = t) = cs.countP (fun c => c.type = t)
  | i, c :: cs, b :: bs, g :: gs, h1, h2, h => by
    have ih := wg_countP t (i + 1) cs bs gs (by simpa using h1) (by simpa using h2) fun n g hn => h (n + 1) g hn
    unfold withoutGenerated
    cases g with
    | none => simp [List.countP_cons, ih]
    | some g =>
      obtain ⟨c', hc', ht⟩ := h 0 g rfl
      simp only [List.getElem?_cons_zero, Option.some.injEq] at hc'
      subst hc'
      simp [ht, ih]
  | _, [], _, _, _, _, _ => by simp [withoutGenerated]
  | _, _ :: _, [], _, h, _, _ => by simp at h
  | _, _ :: _, _ :: _, [], _, h, _ => by simp at h

theorem boundsUpTo_length (n : Nat) (bs : List ErrorBound) : (boundsUpTo n bs).length = bs.length := by
  simp [boundsUpTo]
  omega

theorem generatedUpTo_length (n : Nat) (gs : List (Option (Generated ε))) : (generatedUpTo n gs).length = gs.length := by
  simp [generatedUpTo]
  omega

theorem generatedUpTo_none {n i : Nat} {gs : List (Option (Generated ε))} (h : gs[i]? = some none) :
    (generatedUpTo n gs)[i]? = some none := by
  obtain ⟨hl, _⟩ := List.getElem?_eq_some_iff.mp h
  unfold generatedUpTo
  by_cases hi : i < n
  · rw [List.getElem?_append_left (by simp; omega), List.getElem?_take_of_lt hi, h]
  · rw [List.getElem?_append_right (by simp; omega), List.getElem?_replicate, if_pos (by simp; omega)]

theorem generatedUpTo_some {n i : Nat} {gs : List (Option (Generated ε))} {g : Generated ε}
    (h : (generatedUpTo n gs)[i]? = some (some g)) : gs[i]? = some (some g) := by
  unfold generatedUpTo at h
  by_cases hi : i < (gs.take n).length
  · rw [List.getElem?_append_left hi, List.getElem?_take_of_lt (by simp at hi; omega)] at h
    exact h
  · rw [List.getElem?_append_right (by omega), List.getElem?_replicate] at h
    split at h <;> cases h

/-- A definition without the error bounds and expressions of the last columns is accepted. -/
theorem tryNew_upTo {m : Metadata ε} {bs : List ErrorBound} (hacc : tryNew m.name m.querySchema bs m.generated = .ok m)
    (hgen : ∀ (i : Nat) (g : Generated ε), m.generated[i]? = some (some g) → ∃ c, m.querySchema[i]? = some c ∧ c.type = .value)
    (n : Nat) : ∃ m₀, tryNew m.name m.querySchema (boundsUpTo n bs) (generatedUpTo n m.generated) = .ok m₀ := by
  obtain ⟨h1, h2, h3, h4, h5, h6, h7, h8⟩ := tryNew_ok.mp hacc
  have hcon := consistent_of_tryNew hacc
  have hts : (indicesOfType (withoutGenerated 0 m.querySchema (boundsUpTo n bs) (generatedUpTo n m.generated)).1
      .timestamp).length = 1 := by
    rw [indicesOfType_length, wg_countP _ _ _ _ _ (by rw [boundsUpTo_length, h1]) (by rw [generatedUpTo_length, h2])]
    · have := congrArg List.length h6
      rw [indicesOfType_length, wg_countP _ _ _ _ _ h1 h2] at this
      · exact this
      · intro i g hg
        obtain ⟨c, hc, ht⟩ := hgen i g hg
        exact ⟨c, hc, by rw [ht]; decide⟩
    · intro i g hg
      obtain ⟨c, hc, ht⟩ := hgen i g (generatedUpTo_some hg)
      exact ⟨c, hc, by rw [ht]; decide⟩
  obtain ⟨ti, hti⟩ := List.length_eq_one_iff.mp hts
  have hfield : indicesOfType (withoutGenerated 0 m.querySchema (boundsUpTo n bs) (generatedUpTo n m.generated)).1 .value ≠ [] := by
    obtain ⟨j, hj⟩ := List.exists_mem_of_ne_nil _ h7
    obtain ⟨c, hc, ht⟩ := (mem_indicesOfType _ _ _).mp hj
    have hjl : j < (withoutGenerated 0 m.querySchema bs m.generated).2.1.length := by
      rw [← (wg_length 0 m.querySchema bs m.generated).1]
      exact (List.getElem?_eq_some_iff.mp hc).1
    obtain ⟨k, hk, hkl, hks, -⟩ := wg_get 0 m.querySchema bs m.generated j _ (List.getElem?_eq_getElem hjl)
    obtain ⟨k', hk', hkn⟩ := (wg_mem 0 m.querySchema bs m.generated _ h1 h2).mp (List.getElem_mem hjl)
    have : k' = k := by omega
    subst this
    have hmem := (wg_mem 0 m.querySchema (boundsUpTo n bs) (generatedUpTo n m.generated) k' (by rw [boundsUpTo_length, h1])
      (by rw [generatedUpTo_length, h2])).mpr ⟨k', by omega, generatedUpTo_none hkn⟩
    obtain ⟨j', hj'l, hj'⟩ := List.mem_iff_getElem.mp hmem
    obtain ⟨k2, hk2, _, hs2, -⟩ := wg_get 0 m.querySchema (boundsUpTo n bs) (generatedUpTo n m.generated) j' k'
      (by rw [List.getElem?_eq_getElem hj'l, hj'])
    have : k2 = k' := by omega
    subst this
    apply List.ne_nil_of_mem (a := j')
    rw [mem_indicesOfType]
    exact ⟨c, by rw [hs2, ← hks, hc], ht⟩
  refine ⟨{ name := m.name, timestampIndex := ti
            fieldIndices := indicesOfType (withoutGenerated 0 m.querySchema (boundsUpTo n bs) (generatedUpTo n m.generated)).1 .value
            tagIndices := indicesOfType (withoutGenerated 0 m.querySchema (boundsUpTo n bs) (generatedUpTo n m.generated)).1 .string
            errorBounds := (withoutGenerated 0 m.querySchema (boundsUpTo n bs) (generatedUpTo n m.generated)).2.2
            generated := generatedUpTo n m.generated
            schema := (withoutGenerated 0 m.querySchema (boundsUpTo n bs) (generatedUpTo n m.generated)).1
            querySchema := m.querySchema
            querySchemaToSchema := (withoutGenerated 0 m.querySchema (boundsUpTo n bs) (generatedUpTo n m.generated)).2.1
            compressedSchema := compressedSchemaBase ++
              (indicesOfType (withoutGenerated 0 m.querySchema (boundsUpTo n bs) (generatedUpTo n m.generated)).1 .string).filterMap
                fun i => (withoutGenerated 0 m.querySchema (boundsUpTo n bs) (generatedUpTo n m.generated)).1[i]? },
    tryNew_ok.mpr ⟨by rw [boundsUpTo_length, h1], by rw [generatedUpTo_length, h2], ?_, h4, h5, ?_, hfield, rfl⟩⟩
  · rw [checkGenerated_ok] at h3 ⊢
    intro g hg s hs
    obtain ⟨i, hi⟩ := List.mem_iff_getElem?.mp hg
    exact generatedUpTo_none (h3 g (List.mem_of_getElem? (generatedUpTo_some hi)) s hs)
  · exact hti

/-- If the rows of the first columns are on disk, the table that is loaded is the one without the error bounds and expressions of the
others. -/
theorem loadTable_of_prefix {env env' : Env ε} (henv : ∀ e, (env.refs e).Perm (env'.refs e)) {m : Metadata ε} (hm : Storable env m)
    {bs : List ErrorBound} (hacc : tryNew m.name m.querySchema bs m.generated = .ok m) {n : Nat} (hn : n ≤ m.querySchema.length)
    {d : Disk ε}
    (hd : d.fieldRows.filter (fun r => r.table.toList = m.name.toList) = fieldRows m 0 (m.querySchema.take n)) :
    ∃ m₀ m', tryNew m.name m.querySchema (boundsUpTo n bs) (generatedUpTo n m.generated) = .ok m₀ ∧
      loadTable env' d m.name m.querySchema = .ok m' ∧ SameDefinition m₀ m' := by
  obtain ⟨m₀, hm₀⟩ := tryNew_upTo hacc (fun i g hg => (hm.generatedFields i g hg).1) n
  obtain ⟨h1, h2, h3, h4, h5, h6, h7, h8⟩ := tryNew_ok.mp hacc
  obtain ⟨k1, k2, k3, k4, k5, k6, k7, k8⟩ := tryNew_ok.mp hm₀
  have hcon := consistent_of_tryNew hacc
  obtain ⟨gs', hgs', hsame⟩ := generatedOfRows_fieldRows m (Nat.lt_succ_of_le h4) henv hm.generatedFields
    (List.replicate (m.querySchema.length - n) none) (m.querySchema.take n) (m.generated.take n) []
    (by simp)
    (by rw [List.length_take, List.length_take, h2])
    (by
      intro i hi
      rw [List.length_take] at hi
      rw [List.getElem?_take_of_lt (by omega)]
      simp)
    (by
      intro i hi
      rw [List.length_take] at hi
      rw [List.getElem?_take_of_lt (by omega)]
      simp)
  have hbs := boundsOfRows_fieldRows m (Nat.lt_succ_of_le h4) hm.meaningful (List.replicate (m.querySchema.length - n) .lossless)
    (m.querySchema.take n) [] (by simp)
  have hrep : ∀ {τ : Type} (x : τ), List.replicate (m.querySchema.take n).length x ++ List.replicate (m.querySchema.length - n) x =
      List.replicate m.querySchema.length x := by
    intro τ x
    rw [List.replicate_append_replicate, List.length_take]
    congr 1
    omega
  simp only [List.length_nil, List.nil_append, hrep] at hgs' hbs
  have hall : List.Forall₂ (Option.Rel SameGenerated) (generatedUpTo n m.generated)
      (gs' ++ List.replicate (m.querySchema.length - n) none) := by
    unfold generatedUpTo
    rw [← h2]
    exact List.rel_append hsame (List.forall₂_same.mpr fun x hx => by rw [List.eq_of_mem_replicate hx]; exact .none)
  have hwg : withoutGenerated 0 m.querySchema (boundsUpTo n bs) (generatedUpTo n m.generated) =
      withoutGenerated 0 m.querySchema ((m.querySchema.take n).map (loadedBound m) ++
        List.replicate (m.querySchema.length - n) .lossless) (gs' ++ List.replicate (m.querySchema.length - n) none) := by
    refine wg_congr 0 _ _ _ _ _ hall ?_ ?_
    · rw [boundsUpTo_length]
      simp
      omega
    intro i hi
    unfold boundsUpTo
    by_cases hin : i < n
    · have hgi : m.generated[i]? = some none := by
        unfold generatedUpTo at hi
        rw [List.getElem?_append_left (by simp; omega), List.getElem?_take_of_lt hin] at hi
        exact hi
      rw [List.getElem?_append_left (by simp; omega), List.getElem?_append_left (by simp; omega), List.getElem?_take_of_lt hin,
        List.getElem?_map, List.getElem?_take_of_lt hin]
      obtain ⟨j, hjl, hjn⟩ := List.mem_iff_getElem.mp ((hcon.positions i).mpr hgi)
      have hj : m.querySchemaToSchema[j]? = some i := by rw [List.getElem?_eq_getElem hjl, hjn]
      obtain ⟨hnl, hs, hb⟩ := hcon.column j i hj
      have hc : m.querySchema[i]? = some m.querySchema[i] := List.getElem?_eq_getElem hnl
      have hidx := indexOf_schema hcon hm.names hj hc
      rw [← hb, hc, Option.map_some]
      unfold loadedBound
      split
      · rw [hidx]
        dsimp only
        have : j < m.errorBounds.length := by
          have := hcon.length.2
          omega
        rw [List.getElem?_eq_getElem this]
        rfl
      · rename_i ht
        exact hm.onlyFields j _ (hs.trans hc) ht
    · rw [List.getElem?_append_right (by simp; omega), List.getElem?_append_right (by simp; omega), List.getElem?_replicate,
        List.getElem?_replicate]
      simp only [List.length_take, List.length_map]
      rw [h1]
  have hgen₀ : m₀.generated = generatedUpTo n m.generated := by rw [k8]
  refine ⟨m₀, { m₀ with generated := gs' ++ List.replicate (m.querySchema.length - n) none }, hm₀, ?_, rfl, ?_⟩
  · unfold loadTable selectFieldRows
    rw [literal_of_noQuote _ hm.noQuote]
    have hu : uniqueNames m.querySchema = true := by simpa [uniqueNames] using hm.names
    simp only [hd, hbs, hu, hgs', bind, Except.bind, Bool.not_true, Bool.false_eq_true, if_false]
    show tryNew _ _ _ _ = _
    rw [tryNew_ok]
    rw [← hwg]
    refine ⟨by simp; omega, ?_, checkGenerated_same hall k3, h4, h5, k6, k7, ?_⟩
    · rw [← hall.length_eq]
      exact k2
    · conv_lhs => rw [k8]
  · rw [hgen₀]
    exact hall

theorem loadTable_of_rows {env env' : Env ε} (henv : ∀ e, (env.refs e).Perm (env'.refs e)) {m : Metadata ε} (hm : Storable env m)
    {d : Disk ε} (hd : d.fieldRows.filter (fun r => r.table.toList = m.name.toList) = fieldRows m 0 m.querySchema) :
    ∃ m', loadTable env' d m.name m.querySchema = .ok m' ∧ SameDefinition m m' := by
  obtain ⟨bs, hacc⟩ := hm.accepted
  obtain ⟨m₀, m', h1, h2, h3⟩ := loadTable_of_prefix henv hm hacc (Nat.le_refl _) (by rw [List.take_length]; exact hd)
  obtain ⟨k1, k2, -⟩ := tryNew_ok.mp hacc
  unfold boundsUpTo generatedUpTo at h1
  rw [k1, List.take_length, Nat.sub_self, ← k1, k2, List.take_length, Nat.sub_self, List.replicate_zero, List.replicate_zero,
    List.append_nil, List.append_nil, hacc] at h1
  injection h1 with h1
  subst h1
  exact ⟨m', h2, h3⟩

/-- The disk holds exactly the given tables. -/
structure FolderOk (d : Disk ε) (ts : List (Metadata ε)) (ns : List String) : Prop where
  rows : d.tableRows = ts.map fun m => (m.name, m.querySchema)
  normal : d.normalRows = ns
  fields : ∀ m ∈ ts, d.fieldRows.filter (fun r => r.table = m.name) = fieldRows m 0 m.querySchema
  owned : ∀ r ∈ d.fieldRows, ∃ m ∈ ts, r.table = m.name
  series : ∀ t, (t, true) ∈ d.deltaTables ↔ ∃ m ∈ ts, m.name = t
  normals : ∀ t, (t, false) ∈ d.deltaTables ↔ t ∈ ns
  disjoint : ∀ t, (t, true) ∈ d.deltaTables → (t, false) ∉ d.deltaTables
  distinct : (ns ++ ts.map (·.name)).Nodup

theorem fieldRows_table (m : Metadata ε) : ∀ (cs : List Column) (i : Nat), ∀ r ∈ fieldRows m i cs, r.table = m.name
  | [], _, r, h => by simp [fieldRows] at h
  | c :: cs, i, r, h => by
    rw [fieldRows] at h
    split at h
    · rcases List.mem_cons.mp h with rfl | h
      · rfl
      · exact fieldRows_table m cs _ r h
    · exact fieldRows_table m cs _ r h

theorem applyAll_append (d : Disk ε) (es fs : List (Effect ε)) : d.applyAll (es ++ fs) = (d.applyAll es).applyAll fs := by
  simp [Disk.applyAll]

theorem applyAll_addFieldRows (d : Disk ε) : ∀ rs : List (FieldRow ε),
    d.applyAll (rs.map .addFieldRow) = { d with fieldRows := d.fieldRows ++ rs } := by
  intro rs
  induction rs generalizing d with
  | nil => simp [Disk.applyAll]
  | cons r rs ih =>
    have : d.applyAll ((r :: rs).map .addFieldRow) = (d.apply (.addFieldRow r)).applyAll (rs.map .addFieldRow) := rfl
    rw [this, ih]
    simp [Disk.apply]

theorem any_fst {l : List (String × Bool)} {t : String} : l.any (fun x => decide (x.1 = t)) = true ↔ (t, true) ∈ l ∨ (t, false) ∈ l := by
  rw [List.any_eq_true]
  constructor
  · rintro ⟨⟨x, b⟩, h, hx⟩
    simp only [decide_eq_true_eq] at hx
    subst hx
    cases b
    · exact .inr h
    · exact .inl h
  · rintro (h | h)
    · exact ⟨_, h, by simp⟩
    · exact ⟨_, h, by simp⟩

theorem FolderOk.createNormal {d : Disk ε} {ts : List (Metadata ε)} {ns : List String} (h : FolderOk d ts ns) {t : String}
    {es : List (Effect ε)} (he : createNormalTable d t = some es) : FolderOk (d.applyAll es) ts (ns ++ [t]) := by
  unfold createNormalTable at he
  split at he
  · cases he
  rename_i hn
  rw [any_fst, not_or] at hn
  injection he with he
  subst he
  have hdist : ((ns ++ [t]) ++ ts.map (·.name)).Nodup := by
    rw [List.append_assoc, List.singleton_append, List.nodup_middle, List.nodup_cons]
    refine ⟨?_, h.distinct⟩
    rw [List.mem_append, List.mem_map]
    rintro (hc | hc)
    · exact hn.2 ((h.normals t).mpr hc)
    · exact hn.1 ((h.series t).mpr hc)
  refine ⟨h.rows, ?_, h.fields, h.owned, ?_, ?_, ?_, hdist⟩
  · simp [Disk.applyAll, Disk.apply, h.normal]
  · intro u
    simp [Disk.applyAll, Disk.apply, h.series]
  · intro u
    simp [Disk.applyAll, Disk.apply, h.normals]
  · intro u hu
    simp only [Disk.applyAll, Disk.apply, List.foldl_cons, List.foldl_nil, List.mem_append, List.mem_singleton, Prod.mk.injEq,
      Bool.true_eq_false, and_false, or_false, and_true, not_or] at hu ⊢
    refine ⟨h.disjoint u hu, ?_⟩
    rintro rfl
    exact hn.1 hu

theorem FolderOk.create {d : Disk ε} {ts : List (Metadata ε)} {ns : List String} (h : FolderOk d ts ns) {m : Metadata ε}
    {es : List (Effect ε)} (he : createTimeSeriesTable d m = some es) : FolderOk (d.applyAll es) (ts ++ [m]) ns := by
  unfold createTimeSeriesTable at he
  split at he
  · cases he
  rename_i hn
  rw [any_fst, not_or] at hn
  injection he with he
  subst he
  rw [applyAll_append, applyAll_addFieldRows]
  have hnone : ∀ m' ∈ ts, m'.name ≠ m.name := by
    intro m' hm' heq
    exact hn.1 ((h.series _).mpr ⟨m', hm', heq⟩)
  have hall : (fieldRows m 0 m.querySchema).filter (fun r => r.table = m.name) = fieldRows m 0 m.querySchema := by
    rw [List.filter_eq_self]
    intro r hr
    simp [fieldRows_table m _ _ r hr]
  have hold : d.fieldRows.filter (fun r => r.table = m.name) = [] := by
    rw [List.filter_eq_nil_iff]
    intro r hr
    obtain ⟨m', hm', hr'⟩ := h.owned r hr
    simp [hr', hnone m' hm']
  have hdist : (ns ++ (ts ++ [m]).map (·.name)).Nodup := by
    rw [List.map_append, ← List.append_assoc, List.map_cons, List.map_nil]
    have hperm : (m.name :: (ns ++ ts.map (·.name))).Nodup := by
      rw [List.nodup_cons]
      refine ⟨?_, h.distinct⟩
      rw [List.mem_append, List.mem_map]
      rintro (hc | hc)
      · exact hn.2 ((h.normals _).mpr hc)
      · exact hn.1 ((h.series _).mpr hc)
    exact (List.perm_append_singleton _ _).nodup_iff.mpr hperm
  refine ⟨?_, h.normal, ?_, ?_, ?_, ?_, ?_, hdist⟩
  · simp [Disk.applyAll, Disk.apply, h.rows]
  · intro m' hm'
    simp only [Disk.applyAll, Disk.apply, List.foldl_cons, List.foldl_nil, List.filter_append]
    rcases List.mem_append.mp hm' with hm' | hm'
    · rw [h.fields m' hm']
      have : (fieldRows m 0 m.querySchema).filter (fun r => r.table = m'.name) = [] := by
        rw [List.filter_eq_nil_iff]
        intro r hr
        have := hnone m' hm'
        simp [fieldRows_table m _ _ r hr, this.symm]
      rw [this, List.append_nil]
    · rw [List.mem_singleton] at hm'
      subst hm'
      rw [hall, hold, List.nil_append]
  · intro r hr
    simp only [Disk.applyAll, Disk.apply, List.foldl_cons, List.foldl_nil, List.mem_append] at hr
    rcases hr with hr | hr
    · obtain ⟨m', hm', hr'⟩ := h.owned r hr
      exact ⟨m', List.mem_append_left _ hm', hr'⟩
    · exact ⟨m, by simp, fieldRows_table m _ _ r hr⟩
  · intro u
    simp only [Disk.applyAll, Disk.apply, List.foldl_cons, List.foldl_nil, List.mem_append, List.mem_singleton, Prod.mk.injEq,
      and_true, h.series]
    constructor
    · rintro (⟨m', hm', rfl⟩ | rfl)
      · exact ⟨m', .inl hm', rfl⟩
      · exact ⟨m, .inr rfl, rfl⟩
    · rintro ⟨m', hm' | rfl, rfl⟩
      · exact .inl ⟨m', hm', rfl⟩
      · exact .inr rfl
  · intro u
    simp [Disk.applyAll, Disk.apply, h.normals]
  · intro u hu
    simp only [Disk.applyAll, Disk.apply, List.foldl_cons, List.foldl_nil, List.mem_append, List.mem_singleton, Prod.mk.injEq,
      Bool.false_eq_true, and_false, or_false, and_true] at hu ⊢
    rcases hu with hu | rfl
    · exact h.disjoint u hu
    · exact hn.2

theorem FolderOk.drop {d : Disk ε} {ts : List (Metadata ε)} {ns : List String} (h : FolderOk d ts ns) {t : String}
    {es : List (Effect ε)} (he : dropTable d t = some es) :
    FolderOk (d.applyAll es) (ts.filter (·.name ≠ t)) (ns.filter (· ≠ t)) := by
  unfold dropTable at he
  have hdelta : ∀ (u : String) (b : Bool), (u, b) ∈ d.deltaTables.filter (·.1 ≠ t) ↔ (u, b) ∈ d.deltaTables ∧ u ≠ t := by
    intro u b
    simp [List.mem_filter]
  have hdis : ∀ u, (u, true) ∈ d.deltaTables.filter (·.1 ≠ t) → (u, false) ∉ d.deltaTables.filter (·.1 ≠ t) := by
    intro u hu hu'
    rw [hdelta] at hu hu'
    exact h.disjoint u hu.1 hu'.1
  have hser : ∀ u, (u, true) ∈ d.deltaTables.filter (·.1 ≠ t) ↔ ∃ m ∈ ts.filter (·.name ≠ t), m.name = u := by
    intro u
    rw [hdelta, h.series]
    constructor
    · rintro ⟨⟨m, hm, rfl⟩, hne⟩
      exact ⟨m, by simp [List.mem_filter, hm, hne], rfl⟩
    · rintro ⟨m, hm, rfl⟩
      simp only [ne_eq, decide_not, List.mem_filter, Bool.not_eq_eq_eq_not, Bool.not_true, decide_eq_false_iff_not] at hm
      exact ⟨⟨m, hm.1, rfl⟩, hm.2⟩
  have hnor : ∀ u, (u, false) ∈ d.deltaTables.filter (·.1 ≠ t) ↔ u ∈ ns.filter (· ≠ t) := by
    intro u
    rw [hdelta, h.normals]
    simp [List.mem_filter]
  have hdist : (ns.filter (· ≠ t) ++ (ts.filter (·.name ≠ t)).map (·.name)).Nodup := by
    refine h.distinct.sublist ?_
    exact List.Sublist.append (List.filter_sublist) (List.filter_sublist.map _)
  split at he
  · cases he
  · rename_i heq
    have hmem := List.mem_of_find?_eq_some heq
    have := List.find?_some heq
    simp only [decide_eq_true_eq] at this
    subst this
    injection he with he
    subst he
    rename_i t
    have hnot : ∀ m ∈ ts, m.name ≠ t := by
      intro m hm hname
      exact h.disjoint t ((h.series t).mpr ⟨m, hm, hname⟩) hmem
    have hts : ts.filter (·.name ≠ t) = ts := by
      rw [List.filter_eq_self]
      intro m hm
      simpa using hnot m hm
    refine ⟨?_, ?_, ?_, ?_, hser, hnor, hdis, hdist⟩
    · rw [hts]
      exact h.rows
    · simp [Disk.applyAll, Disk.apply, h.normal]
    · rw [hts]
      exact h.fields
    · rw [hts]
      exact h.owned
  · rename_i heq
    have hmem := List.mem_of_find?_eq_some heq
    have := List.find?_some heq
    simp only [decide_eq_true_eq] at this
    subst this
    injection he with he
    subst he
    rename_i t
    have hns : ns.filter (· ≠ t) = ns := by
      rw [List.filter_eq_self]
      intro u hu
      simp only [ne_eq, decide_not, Bool.not_eq_eq_eq_not, Bool.not_true, decide_eq_false_iff_not]
      rintro rfl
      exact h.disjoint _ hmem ((h.normals _).mpr hu)
    refine ⟨?_, ?_, ?_, ?_, hser, hnor, hdis, hdist⟩
    · simp only [Disk.applyAll, Disk.apply, List.foldl_cons, List.foldl_nil, h.rows, List.filter_map]
      rfl
    · rw [hns]
      exact h.normal
    · intro m hm
      simp only [ne_eq, decide_not, List.mem_filter, Bool.not_eq_eq_eq_not, Bool.not_true, decide_eq_false_iff_not] at hm
      simp only [Disk.applyAll, Disk.apply, List.foldl_cons, List.foldl_nil, List.filter_filter]
      rw [← h.fields m hm.1]
      apply List.filter_congr
      intro r _
      by_cases hr : r.table = m.name
      · simp [hr, hm.2]
      · simp [hr]
    · intro r hr
      simp only [Disk.applyAll, Disk.apply, List.foldl_cons, List.foldl_nil, List.mem_filter] at hr
      obtain ⟨m, hm, hrm⟩ := h.owned r hr.1
      refine ⟨m, ?_, hrm⟩
      have := hr.2
      rw [hrm] at this
      simpa [List.mem_filter, hm] using this

theorem FolderOk.run : ∀ {ops : List (FolderOp ε)} {d d' : Disk ε} {ts : List (Metadata ε)} {ns : List String}, FolderOk d ts ns →
    folderRun d ops = some d' → FolderOk d' (tablesAfter ts ops) (normalTablesAfter ns ops)
  | [], d, d', ts, ns, h, hr => by
    injection hr with hr
    subst hr
    exact h
  | op :: ops, d, d', ts, ns, h, hr => by
    simp only [folderRun, Option.bind_eq_some_iff] at hr
    obtain ⟨es, he, hr⟩ := hr
    cases op with
    | createNormal t => exact (h.createNormal he).run hr
    | create m => exact (h.create he).run hr
    | drop t => exact (h.drop he).run hr

theorem folderOk_empty : FolderOk (emptyFolder : Disk ε) [] [] := by
  refine ⟨rfl, rfl, by simp, ?_, ?_, ?_, ?_, ?_⟩ <;> simp [emptyFolder]

theorem mem_tablesAfter : ∀ {ops : List (FolderOp ε)} {ts : List (Metadata ε)} {m : Metadata ε}, m ∈ tablesAfter ts ops →
    m ∈ ts ∨ m ∈ created ops
  | [], _, _, h => .inl h
  | .createNormal _ :: ops, _, _, h => mem_tablesAfter (ops := ops) h
  | .create m :: ops, ts, m', h => by
    rcases mem_tablesAfter (ops := ops) h with h | h
    · rcases List.mem_append.mp h with h | h
      · exact .inl h
      · rw [List.mem_singleton] at h
        exact .inr (h ▸ List.mem_cons_self)
    · exact .inr (List.mem_cons_of_mem _ h)
  | .drop t :: ops, _, _, h => by
    rcases mem_tablesAfter (ops := ops) h with h | h
    · exact .inl (List.mem_of_mem_filter h)
    · exact .inr h

theorem mem_normalTablesAfter : ∀ {ops : List (FolderOp ε)} {ns : List String} {t : String}, t ∈ normalTablesAfter ns ops →
    t ∈ ns ∨ t ∈ createdNormal ops
  | [], _, _, h => .inl h
  | .create _ :: ops, _, _, h => mem_normalTablesAfter (ops := ops) h
  | .createNormal u :: ops, ns, t, h => by
    rcases mem_normalTablesAfter (ops := ops) h with h | h
    · rcases List.mem_append.mp h with h | h
      · exact .inl h
      · rw [List.mem_singleton] at h
        exact .inr (h ▸ List.mem_cons_self)
    · exact .inr (List.mem_cons_of_mem _ h)
  | .drop t :: ops, _, _, h => by
    rcases mem_normalTablesAfter (ops := ops) h with h | h
    · exact .inl (List.mem_of_mem_filter h)
    · exact .inr h

theorem mapM_loadTable {env env' : Env ε} (henv : ∀ e, (env.refs e).Perm (env'.refs e)) {d : Disk ε} :
    ∀ ts : List (Metadata ε), (∀ m ∈ ts, Storable env m) →
      (∀ m ∈ ts, d.fieldRows.filter (fun r => r.table = m.name) = fieldRows m 0 m.querySchema) →
      ∃ ts', (ts.map fun m => (m.name, m.querySchema)).mapM (fun r => loadTable env' d r.1 r.2) = .ok ts' ∧
        List.Forall₂ SameDefinition ts ts'
  | [], _, _ => ⟨[], rfl, .nil⟩
  | m :: ts, hs, hf => by
    have hm := hf m List.mem_cons_self
    have : d.fieldRows.filter (fun r => r.table.toList = m.name.toList) = fieldRows m 0 m.querySchema := by
      rw [← hm]
      apply List.filter_congr
      intro r _
      simp [String.toList_inj]
    obtain ⟨m', h1, h2⟩ := loadTable_of_rows henv (hs m List.mem_cons_self) this
    obtain ⟨ts', h3, h4⟩ := mapM_loadTable henv ts (fun n hn => hs n (List.mem_cons_of_mem _ hn))
      (fun n hn => hf n (List.mem_cons_of_mem _ hn))
    refine ⟨m' :: ts', ?_, .cons h2 h4⟩
    simp only [List.map_cons, List.mapM_cons, h1, h3]
    rfl

theorem sameDefinition_name {m n : Metadata ε} (h : SameDefinition m n) : n.name = m.name := by
  rw [h.1]

theorem start_of_rows {env env' : Env ε} (henv : ∀ e, (env.refs e).Perm (env'.refs e)) {d : Disk ε} {ts : List (Metadata ε)}
    {rest : List (String × List Column)} {ms : List (Metadata ε)} {ns : List String} (hs : ∀ m ∈ ts, Storable env m)
    (hrows : d.tableRows = (ts.map fun m => (m.name, m.querySchema)) ++ rest) (hnormal : d.normalRows = ns)
    (hfields : ∀ m ∈ ts, d.fieldRows.filter (fun r => r.table = m.name) = fieldRows m 0 m.querySchema)
    (hseries : ∀ m ∈ ts, (m.name, true) ∈ d.deltaTables) (hnormals : ∀ t ∈ ns, (t, false) ∈ d.deltaTables)
    (hrest : rest.mapM (fun r => loadTable env' d r.1 r.2) = .ok ms) (hms : ∀ m ∈ ms, (m.name, true) ∈ d.deltaTables)
    (hdist : (ns ++ (ts.map (·.name) ++ ms.map (·.name))).Nodup) (hself : ∀ t ∈ ns, SelfName t.toList)
    (hselfms : ∀ m ∈ ms, SelfName m.name.toList) :
    ∃ ts', DataFolder.start env' d = .ok (ns, ts' ++ ms) ∧ List.Forall₂ SameDefinition ts ts' := by
  obtain ⟨ts', h1, h2⟩ := mapM_loadTable henv ts hs hfields
  refine ⟨ts', ?_, h2⟩
  have hall : loadTables env' d = .ok (ts' ++ ms) := by
    unfold loadTables
    rw [hrows, List.mapM_append, h1, hrest]
    rfl
  unfold DataFolder.start
  rw [hnormal, hall]
  have ha : ns.all (fun t => d.deltaTables.any fun x => decide (x.1 = t)) = true := by
    rw [List.all_eq_true]
    intro t ht
    rw [any_fst]
    exact .inr (hnormals t ht)
  have hb : (ts' ++ ms).all (fun m => d.deltaTables.any fun x => decide (x.1 = m.name)) = true := by
    rw [List.all_eq_true]
    intro m' hm'
    rw [any_fst]
    rcases List.mem_append.mp hm' with hm' | hm'
    · have : ∃ m ∈ ts, SameDefinition m m' := by
        clear h1 hs hrows hfields hseries hall hdist
        induction h2 with
        | nil => simp at hm'
        | cons hg _ ih =>
          rename_i hm''
          rcases List.mem_cons.mp hm' with rfl | hm'
          · exact ⟨_, List.mem_cons_self, hg⟩
          · obtain ⟨m, h3, h4⟩ := ih (List.mem_append_left _ hm') hm'
            exact ⟨m, List.mem_cons_of_mem _ h3, h4⟩
      obtain ⟨m, h3, h4⟩ := this
      rw [sameDefinition_name h4]
      exact .inl (hseries m h3)
    · exact .inl (hms m' hm')
  have hc : (TableNames.openFolder ((ns ++ (ts' ++ ms).map (·.name)).map String.toList)).isNone = false := by
    have hnames : ts'.map (·.name) = ts.map (·.name) := by
      clear h1 hs hrows hfields hseries hall hb hdist
      induction h2 with
      | nil => rfl
      | cons hg _ ih => rw [List.map_cons, List.map_cons, sameDefinition_name hg, ih]
    rw [List.map_append (f := fun m : Metadata ε => m.name), hnames]
    have := openFolder_isSome (names := (ns ++ (ts.map (·.name) ++ ms.map (·.name))).map String.toList) ?_ ?_
    · rw [Option.isNone_eq_false_iff]; exact this
    · intro n hn
      obtain ⟨t, ht, rfl⟩ := List.mem_map.mp hn
      rw [List.mem_append, List.mem_append, List.mem_map, List.mem_map] at ht
      rcases ht with ht | ⟨m, hm, rfl⟩ | ⟨m, hm, rfl⟩
      · exact hself t ht
      · exact (hs m hm).selfName
      · exact hselfms m hm
    · exact hdist.map fun a b h => String.toList_inj.mp h
  simp only [bind, Except.bind, ha, hb, hc, Bool.not_true, Bool.false_eq_true, if_false]
  rfl

/-- A server that starts has the tables the disk holds. -/
theorem FolderOk.start {env env' : Env ε} (henv : ∀ e, (env.refs e).Perm (env'.refs e)) {d : Disk ε} {ts : List (Metadata ε)}
    {ns : List String} (h : FolderOk d ts ns) (hs : ∀ m ∈ ts, Storable env m) (hself : ∀ t ∈ ns, SelfName t.toList) :
    ∃ ts', DataFolder.start env' d = .ok (ns, ts') ∧ List.Forall₂ SameDefinition ts ts' := by
  obtain ⟨ts', h1, h2⟩ := start_of_rows henv (rest := []) (ms := []) hs (by rw [h.rows, List.append_nil]) h.normal h.fields
    (fun m hm => (h.series _).mpr ⟨m, hm, rfl⟩) (fun t ht => (h.normals t).mpr ht) rfl (by simp) (by simpa using h.distinct) hself (by simp)
  exact ⟨ts', by rw [h1, List.append_nil], h2⟩

theorem fieldRows_take (m : Metadata ε) : ∀ (cs : List Column) (k i : Nat), ∃ n, n ≤ cs.length ∧
    (fieldRows m i cs).take k = fieldRows m i (cs.take n) ∧
    (cs.take n).countP (fun c => c.type = .value) = min k (cs.countP fun c => c.type = .value)
  | [], k, i => ⟨0, Nat.le_refl _, by simp [fieldRows], by simp⟩
  | c :: cs, k, i => by
    by_cases hc : c.type = .value
    · cases k with
      | zero => exact ⟨0, Nat.zero_le _, by simp [fieldRows], by simp⟩
      | succ k =>
        obtain ⟨n, h1, h2, h3⟩ := fieldRows_take m cs k (i + 1)
        refine ⟨n + 1, by simpa using h1, ?_, ?_⟩
        · rw [fieldRows, if_pos hc, List.take_succ_cons, List.take_succ_cons, fieldRows, if_pos hc, h2]
        · rw [List.take_succ_cons, List.countP_cons, List.countP_cons, h3]
          simp only [hc, decide_true, if_true]
          omega
    · obtain ⟨n, h1, h2, h3⟩ := fieldRows_take m cs k (i + 1)
      refine ⟨n + 1, by simpa using h1, ?_, ?_⟩
      · rw [fieldRows, if_neg hc, List.take_succ_cons, fieldRows, if_neg hc, h2]
      · rw [List.take_succ_cons, List.countP_cons, List.countP_cons, h3]
        simp [hc]

/-- A crash before the row of the table is written leaves all tables as they were. -/
theorem FolderOk.crash_before {env env' : Env ε} (henv : ∀ e, (env.refs e).Perm (env'.refs e)) {d : Disk ε} {ts : List (Metadata ε)}
    {ns : List String} (h : FolderOk d ts ns) (hs : ∀ m ∈ ts, Storable env m) (hself : ∀ t ∈ ns, SelfName t.toList) (t : String) (b : Bool) :
    ∃ ts', DataFolder.start env' (d.apply (.createDelta t b)) = .ok (ns, ts') ∧ List.Forall₂ SameDefinition ts ts' := by
  obtain ⟨ts', h1, h2⟩ := start_of_rows (d := d.apply (.createDelta t b)) henv (rest := []) (ms := []) hs
    (by rw [List.append_nil]; exact h.rows) h.normal h.fields
    (fun m hm => List.mem_append_left _ ((h.series _).mpr ⟨m, hm, rfl⟩)) (fun t ht => List.mem_append_left _ ((h.normals t).mpr ht))
    rfl (by simp) (by simpa using h.distinct) hself (by simp)
  exact ⟨ts', by rw [h1, List.append_nil], h2⟩

/-- A crash after the row of the table is written leaves the table without the error bounds and expressions of its last columns. -/
theorem FolderOk.crash_after {env env' : Env ε} (henv : ∀ e, (env.refs e).Perm (env'.refs e)) {d : Disk ε} {ts : List (Metadata ε)}
    {ns : List String} (h : FolderOk d ts ns) (hs : ∀ m ∈ ts, Storable env m) (hself : ∀ t ∈ ns, SelfName t.toList) {m : Metadata ε} (hm : Storable env m)
    {bs : List ErrorBound} (hacc : tryNew m.name m.querySchema bs m.generated = .ok m) {es : List (Effect ε)}
    (he : createTimeSeriesTable d m = some es) (k : Nat) :
    ∃ n m₀ m' ts', n ≤ m.querySchema.length ∧
      (m.querySchema.take n).countP (fun c => c.type = .value) = min k (m.querySchema.countP fun c => c.type = .value) ∧
      tryNew m.name m.querySchema (boundsUpTo n bs) (generatedUpTo n m.generated) = .ok m₀ ∧ SameDefinition m₀ m' ∧
      DataFolder.start env' (d.applyAll (es.take (k + 2))) = .ok (ns, ts' ++ [m']) ∧ List.Forall₂ SameDefinition ts ts' := by
  unfold createTimeSeriesTable at he
  split at he
  · cases he
  rename_i hn
  rw [any_fst, not_or] at hn
  injection he with he
  subst he
  have hnone : ∀ m' ∈ ts, m'.name ≠ m.name := by
    intro m' hm' heq
    exact hn.1 ((h.series _).mpr ⟨m', hm', heq⟩)
  have hold : d.fieldRows.filter (fun r => r.table = m.name) = [] := by
    rw [List.filter_eq_nil_iff]
    intro r hr
    obtain ⟨m', hm', hr'⟩ := h.owned r hr
    simp [hr', hnone m' hm']
  obtain ⟨n, hn1, hn2, hn3⟩ := fieldRows_take m m.querySchema k 0
  have hd' : d.applyAll (([Effect.createDelta m.name true, Effect.addTableRow m.name m.querySchema] ++
        (fieldRows m 0 m.querySchema).map Effect.addFieldRow).take (k + 2)) =
      { d with deltaTables := d.deltaTables ++ [(m.name, true)], tableRows := d.tableRows ++ [(m.name, m.querySchema)]
               fieldRows := d.fieldRows ++ fieldRows m 0 (m.querySchema.take n) } := by
    rw [List.cons_append, List.cons_append, List.nil_append, List.take_succ_cons, List.take_succ_cons, ← List.map_take, hn2]
    show Disk.applyAll (d.applyAll [.createDelta m.name true, .addTableRow m.name m.querySchema]) _ = _
    rw [applyAll_addFieldRows]
    rfl
  rw [hd']
  obtain ⟨m₀, m', hm₀, hload, hsame⟩ := loadTable_of_prefix (n := n) henv hm hacc hn1
    (d := { d with deltaTables := d.deltaTables ++ [(m.name, true)], tableRows := d.tableRows ++ [(m.name, m.querySchema)]
                   fieldRows := d.fieldRows ++ fieldRows m 0 (m.querySchema.take n) })
    (by
      have h1 : (fieldRows m 0 (m.querySchema.take n)).filter (fun r => r.table.toList = m.name.toList) =
          fieldRows m 0 (m.querySchema.take n) := by
        rw [List.filter_eq_self]
        intro r hr
        simp [fieldRows_table m _ _ r hr]
      have h2 : d.fieldRows.filter (fun r => r.table.toList = m.name.toList) = [] := by
        rw [← hold]
        apply List.filter_congr
        intro r _
        simp [String.toList_inj]
      dsimp only
      rw [List.filter_append, h1, h2, List.nil_append])
  have hname : m'.name = m.name := by
    rw [sameDefinition_name hsame]
    rw [(tryNew_ok.mp hm₀).2.2.2.2.2.2.2]
  obtain ⟨ts', h1, h2⟩ := start_of_rows
    (d := { d with deltaTables := d.deltaTables ++ [(m.name, true)], tableRows := d.tableRows ++ [(m.name, m.querySchema)]
                   fieldRows := d.fieldRows ++ fieldRows m 0 (m.querySchema.take n) })
    henv (rest := [(m.name, m.querySchema)]) (ms := [m']) hs (by rw [← h.rows]) h.normal
    (by
      intro m' hm'
      dsimp only
      rw [List.filter_append, h.fields m' hm']
      have : (fieldRows m 0 (m.querySchema.take n)).filter (fun r => r.table = m'.name) = [] := by
        rw [List.filter_eq_nil_iff]
        intro r hr
        have := hnone m' hm'
        simp [fieldRows_table m _ _ r hr, this.symm]
      rw [this, List.append_nil])
    (fun m hm => List.mem_append_left _ ((h.series _).mpr ⟨m, hm, rfl⟩)) (fun t ht => List.mem_append_left _ ((h.normals t).mpr ht))
    (by
      rw [List.mapM_cons, hload]
      rfl)
    (by
      intro m'' hm''
      rw [List.mem_singleton] at hm''
      subst hm''
      rw [hname]
      simp)
    (by
      rw [List.map_cons, List.map_nil, hname, ← List.append_assoc]
      refine (List.perm_append_singleton _ _).nodup_iff.mpr ?_
      rw [List.nodup_cons]
      refine ⟨?_, h.distinct⟩
      rw [List.mem_append, List.mem_map]
      rintro (hc | hc)
      · exact hn.2 ((h.normals _).mpr hc)
      · exact hn.1 ((h.series _).mpr hc))
    hself
    (by
      intro m'' hm''
      rw [List.mem_singleton] at hm''
      subst hm''
      rw [hname]
      exact hm.selfName)
  exact ⟨n, m₀, m', ts', hn1, hn3, hm₀, hsame, h1, h2⟩

/-- A crash while a table is dropped, after its row was deleted. -/
theorem FolderOk.crash_drop {env env' : Env ε} (henv : ∀ e, (env.refs e).Perm (env'.refs e)) {d : Disk ε} {ts : List (Metadata ε)}
    {ns : List String} (h : FolderOk d ts ns) (hs : ∀ m ∈ ts, Storable env m) (hself : ∀ t ∈ ns, SelfName t.toList) {t : String} {es : List (Effect ε)}
    (he : dropTable d t = some es) (k : Nat) :
    ∃ ts', DataFolder.start env' (d.applyAll (es.take (k + 1))) = .ok (ns.filter (· ≠ t), ts') ∧
      List.Forall₂ SameDefinition (ts.filter (·.name ≠ t)) ts' := by
  have hk := h.drop he
  have hs' : ∀ m ∈ ts.filter (·.name ≠ t), Storable env m := fun m hm => hs m (List.mem_of_mem_filter hm)
  have hself' : ∀ u ∈ ns.filter (· ≠ t), SelfName u.toList := fun u hu => hself u (List.mem_of_mem_filter hu)
  by_cases hlast : es.length ≤ k + 1
  · rw [List.take_of_length_le hlast]
    exact hk.start henv hs' hself'
  have key : ∀ d' : Disk ε, d'.tableRows = (d.applyAll es).tableRows → d'.normalRows = (d.applyAll es).normalRows →
      (∀ m ∈ ts.filter (·.name ≠ t), d'.fieldRows.filter (fun r => r.table = m.name) = fieldRows m 0 m.querySchema) →
      d'.deltaTables = d.deltaTables → ∃ ts', DataFolder.start env' d' = .ok (ns.filter (· ≠ t), ts') ∧
      List.Forall₂ SameDefinition (ts.filter (·.name ≠ t)) ts' := by
    intro d' h1 h2 h3 h4
    obtain ⟨ts', h5, h6⟩ := start_of_rows (d := d') henv (rest := []) (ms := []) hs'
      (by rw [h1, hk.rows, List.append_nil]) (by rw [h2, hk.normal]) h3
      (fun m hm => by rw [h4]; exact (h.series _).mpr ⟨m, List.mem_of_mem_filter hm, rfl⟩)
      (fun u hu => by rw [h4]; exact (h.normals u).mpr (List.mem_of_mem_filter hu))
      rfl (by simp) (by simpa using hk.distinct) hself' (by simp)
    exact ⟨ts', by rw [h5, List.append_nil], h6⟩
  unfold dropTable at he
  split at he
  · cases he
  · injection he with he
    subst he
    simp only [List.length_cons, List.length_nil] at hlast
    have : k = 0 := by omega
    subst this
    refine key _ rfl rfl ?_ rfl
    intro m hm
    exact h.fields m (List.mem_of_mem_filter hm)
  · injection he with he
    subst he
    simp only [List.length_cons, List.length_nil] at hlast
    rcases (by omega : k = 0 ∨ k = 1) with rfl | rfl
    · refine key _ rfl rfl ?_ rfl
      intro m hm
      exact h.fields m (List.mem_of_mem_filter hm)
    · refine key _ rfl rfl ?_ rfl
      exact hk.fields

end ModelarDB.Lemmas
