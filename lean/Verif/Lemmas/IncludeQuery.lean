import Verif.Spec.IncludeQuery
import Verif.Props.C26
namespace ModelarDB.Lemmas.IncludeQuery
open Model.DataTransfer Model.IncludeQuery Spec.DataTransfer Spec.IncludeQuery Lemmas.DataTransfer

variable {ν ρ : Type}

/-! ### One table -/

/-- What a step does to the files of a table. -/
structure Effect (t t' : Table ρ) (op : Op ρ) : Prop where
  committed : t'.committed = t.committed ++ saved [op]
  remote : ∃ new, t'.remoteFiles = t.remoteFiles ++ new
  remote_same : (∀ i ok, op ≠ .advance i ok) → t'.remoteFiles = t.remoteFiles
  locals : (t'.localFiles.map Prod.fst).Sublist (t.localFiles.map Prod.fst ++ saved [op])
  locals_same : (∀ i ok, op ≠ .advance i ok) → op ≠ .discard → t'.localFiles.map Prod.fst = t.localFiles.map Prod.fst ++ saved [op]
  discarded : op ≠ .discard → t'.discarded = t.discarded
  running : (∀ i ok, op ≠ .advance i ok) → NoWindow t → NoWindow t'

theorem effect_same {t t' : Table ρ} {op : Op ρ} (ho : saved [op] = []) (hc : t'.committed = t.committed) (hr : t'.remoteFiles = t.remoteFiles)
    (hl : t'.localFiles.map Prod.fst = t.localFiles.map Prod.fst) (hd : t'.discarded = t.discarded) (hw : NoWindow t → NoWindow t') : Effect t t' op :=
  ⟨by rw [ho, hc, List.append_nil], ⟨[], by rw [hr, List.append_nil]⟩, fun _ => hr, by rw [ho, hl, List.append_nil],
    fun _ _ => by rw [ho, hl, List.append_nil], fun _ => hd, fun _ => hw⟩

theorem begin_same {t t' : Table ρ} (h : t.begin = some t') : t'.committed = t.committed ∧ t'.remoteFiles = t.remoteFiles ∧
    t'.localFiles = t.localFiles ∧ t'.discarded = t.discarded ∧ (NoWindow t → NoWindow t') := by
  unfold Table.begin at h
  split at h
  · cases h; exact ⟨rfl, rfl, rfl, rfl, id⟩
  · split at h <;> cases h
    refine ⟨rfl, rfl, rfl, rfl, fun hw x hx => ?_⟩
    simp only [List.mem_append, List.mem_singleton] at hx
    rcases hx with hx | rfl
    · exact hw x hx
    · rfl

theorem effect {t t' : Table ρ} {op : Op ρ} (h : t.step op = some t') : Effect t t' op := by
  cases op with
  | commit file size =>
    cases h
    exact ⟨rfl, ⟨[], by simp⟩, fun _ => rfl, by simp [saved], fun _ _ => by simp [saved], fun _ => rfl, fun _ => id⟩
  | report i =>
    simp only [Table.step] at h
    split at h
    · cases h
    · split at h
      · split at h
        · have := begin_same h
          exact effect_same rfl this.1 this.2.1 (by rw [this.2.2.1]) this.2.2.2.1 this.2.2.2.2
        · cases h; exact effect_same rfl rfl rfl rfl rfl id
      · cases h; exact effect_same rfl rfl rfl rfl rfl id
  | request threshold =>
    simp only [Table.step] at h
    split at h
    · cases h; exact effect_same rfl rfl rfl rfl rfl id
    · split at h
      · have := begin_same h
        exact effect_same rfl this.1 this.2.1 (by rw [this.2.2.1]) this.2.2.2.1 this.2.2.2.2
      · cases h; exact effect_same rfl rfl rfl rfl rfl id
  | advance i ok =>
    have none : ¬ (∀ j o, Op.advance (ρ := ρ) i ok ≠ .advance j o) := fun hn => hn i ok rfl
    have keep : ∀ {u : Table ρ}, u.committed = t.committed → (∃ new, u.remoteFiles = t.remoteFiles ++ new) →
        (u.localFiles.map Prod.fst).Sublist (t.localFiles.map Prod.fst) → u.discarded = t.discarded → Effect t u (.advance i ok) :=
      fun hc hr hl hd => ⟨by rw [hc]; simp [saved], hr, fun hn => absurd hn none, by simpa [saved] using hl, fun hn => absurd hn none,
        fun _ => hd, fun hn => absurd hn none⟩
    simp only [Table.step] at h
    split at h
    · cases h
    · split at h
      · split at h <;> (cases h; exact keep rfl ⟨[], by simp⟩ (List.Sublist.refl _) rfl)
      · split at h
        · cases h; exact keep rfl ⟨_, rfl⟩ (List.Sublist.refl _) rfl
        · cases h; exact keep rfl ⟨[], by simp⟩ (List.Sublist.refl _) rfl
      · split at h
        · cases h; exact keep rfl ⟨[], by simp⟩ (by simp) rfl
        · cases h; exact keep rfl ⟨[], by simp⟩ (List.Sublist.refl _) rfl
      · split at h
        · cases h
        · cases h; exact keep rfl ⟨[], by simp⟩ (List.Sublist.refl _) rfl
  | mark =>
    simp only [Table.step] at h
    split at h
    · cases h; exact effect_same rfl rfl rfl rfl rfl id
    · cases h
  | discard =>
    simp only [Table.step] at h
    split at h
    · cases h
      exact ⟨by simp [saved], ⟨[], by simp⟩, fun _ => rfl, by simp [saved], fun _ hn => absurd rfl hn, fun hn => absurd rfl hn, fun _ => id⟩
    · cases h
  | setBatchSize value =>
    simp only [Table.step] at h
    split at h
    · split at h
      · cases h; exact effect_same rfl rfl rfl rfl rfl id
      · cases h
    · split at h
      · cases h; exact effect_same rfl rfl rfl rfl rfl id
      · cases h
  | restart disk =>
    have hl : (t.localFiles.map fun f => (f.1, disk f.1)).map Prod.fst = t.localFiles.map Prod.fst := by
      rw [List.map_map]; rfl
    simp only [Table.step] at h
    split at h
    · split at h
      · have := begin_same h
        exact effect_same rfl this.1 this.2.1 (by rw [this.2.2.1]; exact hl) this.2.2.2.1 (fun _ => this.2.2.2.2 (fun x hx => by cases hx))
      · cases h; exact effect_same rfl rfl rfl hl rfl (fun _ x hx => by cases hx)
    · cases h; exact effect_same rfl rfl rfl hl rfl (fun _ x hx => by cases hx)

theorem saved_append (a b : List (Op ρ)) : saved (a ++ b) = saved a ++ saved b := by
  induction a with
  | nil => rfl
  | cons op rest ih => cases op <;> simp [saved, ih]

theorem saved_cons (op : Op ρ) (rest : List (Op ρ)) : saved (op :: rest) = saved [op] ++ saved rest := by
  cases op <;> simp [saved]

theorem run_committed {ops : List (Op ρ)} {t t' : Table ρ} (h : t.run ops = some t') : t'.committed = t.committed ++ saved ops := by
  induction ops generalizing t with
  | nil => cases h; simp [saved]
  | cons op rest ih =>
    simp only [Table.run] at h
    obtain ⟨t1, h1, h2⟩ := Option.bind_eq_some_iff.mp h
    rw [ih h2, (effect h1).committed, saved_cons op rest, List.append_assoc]

theorem run_remote {ops : List (Op ρ)} {t t' : Table ρ} (h : t.run ops = some t') : ∃ new, t'.remoteFiles = t.remoteFiles ++ new := by
  induction ops generalizing t with
  | nil => cases h; exact ⟨[], by simp⟩
  | cons op rest ih =>
    simp only [Table.run] at h
    obtain ⟨t1, h1, h2⟩ := Option.bind_eq_some_iff.mp h
    obtain ⟨a, ha⟩ := (effect h1).remote
    obtain ⟨b, hb⟩ := ih h2
    exact ⟨a ++ b, by rw [hb, ha, List.append_assoc]⟩

theorem run_discarded {ops : List (Op ρ)} {t t' : Table ρ} (h : t.run ops = some t') (hk : Keeps ops) : t'.discarded = t.discarded := by
  induction ops generalizing t with
  | nil => cases h; rfl
  | cons op rest ih =>
    simp only [Table.run] at h
    obtain ⟨t1, h1, h2⟩ := Option.bind_eq_some_iff.mp h
    rw [ih h2 (fun x hx => hk x (List.mem_cons_of_mem _ hx)), (effect h1).discarded (hk op List.mem_cons_self)]

theorem run_locals {ops : List (Op ρ)} {t t' : Table ρ} (h : t.run ops = some t') :
    (t'.localFiles.map Prod.fst).Sublist (t.localFiles.map Prod.fst ++ saved ops) := by
  induction ops generalizing t with
  | nil => cases h; simp [saved]
  | cons op rest ih =>
    simp only [Table.run] at h
    obtain ⟨t1, h1, h2⟩ := Option.bind_eq_some_iff.mp h
    rw [saved_cons op rest, ← List.append_assoc]
    exact (ih h2).trans ((effect h1).locals.append (List.Sublist.refl _))

theorem run_waits {ops : List (Op ρ)} {t t' : Table ρ} (h : t.run ops = some t') (hw : Waits ops) (hk : Keeps ops) :
    t'.localFiles.map Prod.fst = t.localFiles.map Prod.fst ++ saved ops ∧ t'.remoteFiles = t.remoteFiles := by
  induction ops generalizing t with
  | nil => cases h; simp [saved]
  | cons op rest ih =>
    simp only [Table.run] at h
    obtain ⟨t1, h1, h2⟩ := Option.bind_eq_some_iff.mp h
    obtain ⟨h3, h4⟩ := ih h2 (fun i ok hm => hw i ok (List.mem_cons_of_mem _ hm)) (fun x hx => hk x (List.mem_cons_of_mem _ hx))
    have hn : ∀ i ok, op ≠ .advance i ok := fun i ok he => hw i ok (he ▸ List.mem_cons_self)
    rw [h3, h4, (effect h1).locals_same hn (hk op List.mem_cons_self), (effect h1).remote_same hn, saved_cons op rest, List.append_assoc]
    exact ⟨rfl, rfl⟩

theorem run_append (a b : List (Op ρ)) (t : Table ρ) : t.run (a ++ b) = (t.run a).bind fun t' => t'.run b := by
  induction a generalizing t with
  | nil => rfl
  | cons s rest ih => simp only [List.cons_append, Table.run, Option.bind_assoc, ih]

theorem calmRun_append {a b : List (Op ρ)} {t : Table ρ} (h : CalmRun t (a ++ b)) : CalmRun t a := by
  induction a generalizing t with
  | nil => trivial
  | cons s rest ih => exact ⟨h.1, fun t' ht' => ih (h.2 t' ht')⟩

/-! ### Several nodes -/

variable [DecidableEq ν]

theorem at_append (u : ν) (a b : List (Step ν ρ)) : at_ u (a ++ b) = at_ u a ++ at_ u b := by
  induction a with
  | nil => rfl
  | cons s rest ih =>
    cases s with
    | op v op => simp only [List.cons_append, at_]; split <;> simp [ih]
    | ask r addresses => exact ih
    | scan => exact ih

theorem world_run_append (nodes : List ν) (a b : List (Step ν ρ)) (w : World ν ρ) :
    w.run nodes (a ++ b) = (w.run nodes a).bind fun w' => w'.run nodes b := by
  induction a generalizing w with
  | nil => rfl
  | cons s rest ih => simp only [List.cons_append, World.run, Option.bind_assoc, ih]

theorem node_run {nodes : List ν} (u : ν) {steps : List (Step ν ρ)} {w w' : World ν ρ} (h : w.run nodes steps = some w') :
    (w.node u).run (at_ u steps) = some (w'.node u) := by
  induction steps generalizing w with
  | nil => cases h; rfl
  | cons s rest ih =>
    simp only [World.run, Option.bind_eq_some_iff] at h
    obtain ⟨w1, h1, h2⟩ := h
    have ih := ih h2
    cases s with
    | op v op =>
      simp only [World.step, Option.map_eq_some_iff] at h1
      obtain ⟨t, ht, rfl⟩ := h1
      simp only [at_]
      by_cases hv : v = u
      · subst hv
        simp only [if_true] at ih ⊢
        simp only [Table.run, ht]
        exact ih
      · simp only [if_neg hv, if_neg (Ne.symm hv)] at ih ⊢
        exact ih
    | ask r addresses =>
      simp only [World.step] at h1
      split at h1
      · cases h1; exact ih
      · cases h1
    | scan =>
      simp only [World.step] at h1
      split at h1
      · cases h1
      · cases h1; exact ih

theorem step_todo {nodes : List ν} {w w' : World ν ρ} {s : Step ν ρ} (h : w.step nodes s = some w') (ha : ∀ r a, s ≠ .ask r a) :
    (w'.todo = w.todo ∧ w'.result = w.result) ∨ ∃ x, w.todo = x :: w'.todo ∧ w'.result = w.result ++ w.files nodes x := by
  cases s with
  | op v op =>
    simp only [World.step, Option.map_eq_some_iff] at h
    obtain ⟨t, _, rfl⟩ := h
    exact .inl ⟨rfl, rfl⟩
  | ask r a => exact absurd rfl (ha r a)
  | scan =>
    simp only [World.step] at h
    split at h
    · cases h
    · next x rest hx => cases h; exact .inr ⟨x, hx, rfl⟩

omit [DecidableEq ν] in
theorem noAsk_cons {s : Step ν ρ} {rest : List (Step ν ρ)} (h : NoAsk (s :: rest)) : (∀ r a, s ≠ .ask r a) ∧ NoAsk rest :=
  ⟨fun r a he => h r a (he ▸ List.mem_cons_self), fun r a hm => h r a (List.mem_cons_of_mem _ hm)⟩

/-- Without a further query, nodes are only removed from those that have yet to plan the query. -/
theorem todo_length {nodes : List ν} {steps : List (Step ν ρ)} {a b : World ν ρ} (h : a.run nodes steps = some b) (hn : NoAsk steps) :
    b.todo.length ≤ a.todo.length := by
  induction steps generalizing a with
  | nil => cases h; exact Nat.le_refl _
  | cons s rest ih =>
    simp only [World.run, Option.bind_eq_some_iff] at h
    obtain ⟨c, hc1, hc2⟩ := h
    obtain ⟨hn1, hn2⟩ := noAsk_cons hn
    have := ih hc2 hn2
    rcases step_todo hc1 hn1 with ⟨e, _⟩ | ⟨y, e, _⟩
    · rw [← e]; exact this
    · rw [e, List.length_cons]; omega

/-- How often a file is in what the nodes that plan the query return, if it is known how often it is in what each node returns. -/
theorem result_count [DecidableEq ρ] {nodes : List ν} (f : ρ) (lo hi : Source ν → Nat) {steps : List (Step ν ρ)} {w w' : World ν ρ} {done : List (Source ν)}
    (h : w.run nodes steps = some w') (ha : NoAsk steps) (hd : w.todo = done ++ w'.todo)
    (hb : ∀ p q w1, steps = p ++ q → w.run nodes p = some w1 → ∀ s ∈ done, lo s ≤ (w1.files nodes s).count f ∧ (w1.files nodes s).count f ≤ hi s) :
    w.result.count f + (done.map lo).sum ≤ w'.result.count f ∧ w'.result.count f ≤ w.result.count f + (done.map hi).sum := by
  induction steps generalizing w done with
  | nil =>
    cases h
    have : done = [] := by
      have := congrArg List.length hd
      simp only [List.length_append] at this
      exact List.length_eq_zero_iff.mp (by omega)
    subst this
    simp
  | cons s rest ih =>
    simp only [World.run, Option.bind_eq_some_iff] at h
    obtain ⟨w1, h1, h2⟩ := h
    obtain ⟨hs, hr⟩ := noAsk_cons ha
    have hb' : ∀ p q w2, rest = p ++ q → w1.run nodes p = some w2 → ∀ x ∈ done, lo x ≤ (w2.files nodes x).count f ∧ (w2.files nodes x).count f ≤ hi x :=
      fun p q w2 he hw => hb (s :: p) q w2 (by rw [he]; rfl) (by simp only [World.run, h1]; exact hw)
    rcases step_todo h1 hs with ⟨ht, hres⟩ | ⟨x, ht, hres⟩
    · have := ih h2 hr (by rw [ht, hd]) hb'
      rw [hres] at this
      exact this
    · cases done with
      | nil =>
        exfalso
        have h3 := todo_length h2 hr
        rw [List.nil_append] at hd
        rw [← hd, ht, List.length_cons] at h3
        omega
      | cons y done =>
        rw [ht, List.cons_append] at hd
        obtain ⟨hxy, hd'⟩ := List.cons.inj hd
        subst hxy
        have := ih h2 hr hd' (fun p q w2 he hw z hz => hb' p q w2 he hw z (List.mem_cons_of_mem _ hz))
        have hx := hb [] (s :: rest) w rfl rfl x List.mem_cons_self
        rw [hres, List.count_append] at this
        simp only [List.map_cons, List.sum_cons]
        omega

/-- The moment at which a node plans the query. -/
theorem scan_at {nodes : List ν} {steps : List (Step ν ρ)} {w w' : World ν ρ} {a b : List (Source ν)} {s : Source ν}
    (h : w.run nodes steps = some w') (ha : NoAsk steps) (hd : w.todo = a ++ s :: b) (he : w'.todo = []) :
    ∃ p q w1, steps = p ++ .scan :: q ∧ w.run nodes p = some w1 ∧ w1.todo = s :: b := by
  induction steps generalizing w a with
  | nil => cases h; rw [he] at hd; exact absurd hd (by simp)
  | cons x rest ih =>
    simp only [World.run, Option.bind_eq_some_iff] at h
    obtain ⟨w1, h1, h2⟩ := h
    obtain ⟨hs, hr⟩ := noAsk_cons ha
    have next : ∀ {a : List (Source ν)}, w1.todo = a ++ s :: b → ∃ p q w1, x :: rest = p ++ .scan :: q ∧ w.run nodes p = some w1 ∧ w1.todo = s :: b := by
      intro a ha
      obtain ⟨p, q, w2, e, hp, ht⟩ := ih h2 hr ha
      exact ⟨x :: p, q, w2, by rw [e]; rfl, by simp only [World.run, h1]; exact hp, ht⟩
    cases a with
    | nil =>
      rcases step_todo h1 hs with ⟨ht, _⟩ | ⟨y, ht, _⟩
      · exact next (a := []) (by rw [ht, hd])
      · cases x with
        | scan => exact ⟨[], rest, w, rfl, rfl, hd⟩
        | ask r a => exact absurd rfl (hs r a)
        | op v op =>
          exfalso
          simp only [World.step, Option.map_eq_some_iff] at h1
          obtain ⟨t, _, rfl⟩ := h1
          have := congrArg List.length ht
          simp only [List.length_cons] at this
          omega
    | cons y a =>
      rcases step_todo h1 hs with ⟨ht, _⟩ | ⟨z, ht, _⟩
      · exact next (a := y :: a) (by rw [ht, hd])
      · rw [hd, List.cons_append] at ht
        exact next (a := a) (List.cons.inj ht).2.symm

omit [DecidableEq ν] in
/-- How often a file is in the remote data folder, if only one node writes it. -/
theorem count_flatMap [DecidableEq ρ] {nodes : List ν} (f : ρ) (g : ν → List ρ) {u : ν} (hn : nodes.Nodup) (hu : u ∈ nodes) (ho : ∀ v, v ≠ u → f ∉ g v) :
    (nodes.flatMap g).count f = (g u).count f := by
  have zero : ∀ {l : List ν}, u ∉ l → (l.flatMap g).count f = 0 := by
    intro l hl
    rw [List.count_eq_zero]
    intro hm
    obtain ⟨v, hv, hm⟩ := List.mem_flatMap.mp hm
    exact ho v (fun e => hl (e ▸ hv)) hm
  induction nodes with
  | nil => cases hu
  | cons v rest ih =>
    rw [List.flatMap_cons, List.count_append]
    obtain ⟨h1, h2⟩ := List.nodup_cons.mp hn
    rcases List.mem_cons.mp hu with rfl | hu
    · rw [zero h1]; rfl
    · rw [ih h2 hu, List.count_eq_zero_of_not_mem (ho v (fun e => h1 (e ▸ hu)))]; omega

end ModelarDB.Lemmas.IncludeQuery
