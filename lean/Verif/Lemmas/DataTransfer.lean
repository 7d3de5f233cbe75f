import Verif.Spec.DataTransfer
import Mathlib.Data.List.Perm.Basic
import Mathlib.Tactic.Ring
/-
Invariants of data transfer.
-/
namespace ModelarDB.Lemmas.DataTransfer
open Model.DataTransfer Spec.DataTransfer

variable {ρ : Type}

theorem u64_of_lt {n : Nat} (h : n < 2 ^ 64) : u64 (n : Int) = n := by
  unfold u64
  rw [Int.emod_eq_of_lt (by omega) (by omega)]
  simp

/-- The files the transfer has copied and not deleted. -/
def doubled (t : Table ρ) : List ρ :=
  match t.running with
  | [⟨_, .written files⟩] => files
  | _ => []

structure CalmInv (t : Table ρ) : Prop where
  count : ∀ p : ρ → Bool, (copies t).countP p = t.committed.countP p + (doubled t).countP p
  bytes : localBytes t < 2 ^ 64
  state : (t.running = [] ∧ t.unreported = [] ∧ t.size.getD 0 = localBytes t) ∨
    (t.running = [] ∧ ∃ f, t.unreported = [f] ∧ t.size.getD 0 + f.2 = localBytes t) ∨
    (t.unreported = [] ∧ t.running = [⟨localBytes t, .started⟩] ∧ t.size = some (localBytes t)) ∨
    (t.unreported = [] ∧ t.running = [⟨localBytes t, .scanned (t.localFiles.map Prod.fst)⟩] ∧ t.size = some (localBytes t)) ∨
    (t.unreported = [] ∧ t.running = [⟨localBytes t, .written (t.localFiles.map Prod.fst)⟩] ∧ t.size = some (localBytes t)) ∨
    (t.unreported = [] ∧ t.localFiles = [] ∧ ∃ c, t.running = [⟨c, .truncated⟩] ∧ t.size = some c)

theorem calm_new (batchSize : Option Nat) : CalmInv (Table.new (ρ := ρ) batchSize) :=
  ⟨fun p => by simp [Table.new, copies, doubled], by simp [Table.new, localBytes],
    Or.inl ⟨rfl, rfl, by simp [Table.new, localBytes]⟩⟩

theorem doubled_nil {t : Table ρ} (h : t.running = []) : doubled t = [] := by unfold doubled; rw [h]

theorem CalmInv.begin {t t' : Table ρ} (h : CalmInv t) (hr : t.running = []) (hu : t.unreported = [])
    (hs : t.size = some (localBytes t)) (hb : t.begin = some t') : CalmInv t' := by
  unfold Table.begin at hb
  split at hb
  · cases hb; exact h
  · rw [hs] at hb
    cases hb
    refine ⟨fun p => ?_, h.bytes, Or.inr (Or.inr (Or.inl ⟨hu, by rw [hr]; rfl, rfl⟩))⟩
    have := h.count p
    rw [doubled_nil hr] at this
    simpa [copies, doubled, hr] using this

theorem calm_step {t t' : Table ρ} {op : Op ρ} (h : CalmInv t) (hc : Calm t op) (hstep : t.step op = some t') : CalmInv t' := by
  cases op with
  | commit file size =>
    obtain ⟨hr, hu, hb⟩ := hc
    cases hstep
    have hd := doubled_nil hr
    refine ⟨fun p => ?_, ?_, Or.inr (Or.inl ⟨hr, (file, size), by simp [hu], ?_⟩)⟩
    · have := h.count p
      rw [hd] at this
      rw [doubled_nil (by exact hr)]
      simp only [copies, List.map_append, List.map_cons, List.map_nil, List.countP_append, List.countP_nil] at this ⊢
      omega
    · simpa [localBytes] using hb
    · rcases h.state with h | h | h | h | h | h
      · simp only [localBytes, List.map_append, List.sum_append, List.map_cons, List.map_nil, List.sum_singleton]
        have := h.2.2
        simp only [localBytes] at this
        omega
      · obtain ⟨_, f, hf, _⟩ := h; rw [hu] at hf; cases hf
      · have := h.2.1; rw [hr] at this; cases this
      · have := h.2.1; rw [hr] at this; cases this
      · have := h.2.1; rw [hr] at this; cases this
      · obtain ⟨_, _, c, h1, _⟩ := h; rw [hr] at h1; cases h1
  | report i =>
    have hr : t.running = [] := hc
    simp only [Table.step] at hstep
    split at hstep
    · cases hstep
    · next f hf =>
      have hst : t.unreported = [f] ∧ i = 0 ∧ t.size.getD 0 + f.2 = localBytes t := by
        rcases h.state with h | h | h | h | h | h
        · have := h.2.1; rw [this] at hf; simp at hf
        · obtain ⟨_, g, hg, h1⟩ := h
          rw [hg] at hf
          cases i with
          | zero => simp at hf; subst hf; exact ⟨hg, rfl, h1⟩
          | succ i => simp at hf
        · have := h.2.1; rw [hr] at this; cases this
        · have := h.2.1; rw [hr] at this; cases this
        · have := h.2.1; rw [hr] at this; cases this
        · obtain ⟨_, _, c, h1, _⟩ := h; rw [hr] at h1; cases h1
      obtain ⟨h1, rfl, h2⟩ := hst
      have h3 : u64 ((t.size.getD 0 : Int) + (f.2 : Int)) = localBytes t := by
        rw [← Int.natCast_add, h2]
        exact u64_of_lt h.bytes
      have hnew : CalmInv { t with unreported := t.unreported.eraseIdx 0, size := some (u64 ((t.size.getD 0 : Int) + (f.2 : Int))) } := by
        refine ⟨fun p => ?_, h.bytes, Or.inl ⟨hr, by simp [h1], ?_⟩⟩
        · have := h.count p
          rw [doubled_nil hr] at this
          rw [doubled_nil (by exact hr)]
          exact this
        · rw [h3]; rfl
      split at hstep
      · split at hstep
        · exact hnew.begin hr (by simp [h1]) (by rw [h3]; rfl) hstep
        · cases hstep; exact hnew
      · cases hstep; exact hnew
  | request threshold =>
    obtain ⟨hr, hu⟩ := hc
    simp only [Table.step] at hstep
    split at hstep
    · cases hstep; exact h
    · next size hs =>
      split at hstep
      · refine h.begin hr hu ?_ hstep
        rcases h.state with h | h | h | h | h | h
        · have := h.2.2; rw [hs] at this ⊢; exact congrArg some this
        · obtain ⟨_, f, hf, _⟩ := h; rw [hu] at hf; cases hf
        · have := h.2.1; rw [hr] at this; cases this
        · have := h.2.1; rw [hr] at this; cases this
        · have := h.2.1; rw [hr] at this; cases this
        · obtain ⟨_, _, c, h1, _⟩ := h; rw [hr] at h1; cases h1
      · cases hstep; exact h
  | advance i ok =>
    simp only [Table.step] at hstep
    have hcount := h.count
    have hone : ∀ x : Transfer ρ, t.running = [x] → ∀ y, t.running[i]? = some y → i = 0 ∧ y = x := by
      intro x hx y hy
      rw [hx] at hy
      cases i with
      | zero => simp at hy; exact ⟨rfl, hy.symm⟩
      | succ i => simp at hy
    rcases h.state with ⟨h1, _⟩ | ⟨h1, _⟩ | ⟨h1, h2, h3⟩ | ⟨h1, h2, h3⟩ | ⟨h1, h2, h3⟩ | ⟨h1, h2, c, h3, h4⟩
    · rw [h1] at hstep; cases hstep
    · rw [h1] at hstep; cases hstep
    · split at hstep
      · cases hstep
      · next x hx =>
        obtain ⟨rfl, rfl⟩ := hone _ h2 x hx
        simp only [h2] at hstep
        have hd : doubled t = [] := by unfold doubled; rw [h2]
        simp only [hd] at hcount
        split at hstep
        · cases hstep
          refine ⟨fun p => ?_, h.bytes, Or.inr (Or.inr (Or.inr (Or.inl ⟨h1, rfl, h3⟩)))⟩
          have := hcount p
          simpa [doubled, copies] using this
        · cases hstep
          refine ⟨fun p => ?_, h.bytes, Or.inl ⟨rfl, h1, by simp only [h3]; rfl⟩⟩
          have := hcount p
          simpa [doubled, copies] using this
    · split at hstep
      · cases hstep
      · next x hx =>
        obtain ⟨rfl, rfl⟩ := hone _ h2 x hx
        simp only [h2] at hstep
        have hd : doubled t = [] := by unfold doubled; rw [h2]
        simp only [hd] at hcount
        split at hstep
        · cases hstep
          refine ⟨fun p => ?_, h.bytes, Or.inr (Or.inr (Or.inr (Or.inr (Or.inl ⟨h1, rfl, h3⟩))))⟩
          have := hcount p
          simp only [doubled, copies, List.set_cons_zero, List.countP_append, List.countP_nil] at this ⊢
          omega
        · cases hstep
          refine ⟨fun p => ?_, h.bytes, Or.inl ⟨rfl, h1, by simp only [h3]; rfl⟩⟩
          have := hcount p
          simpa [doubled, copies] using this
    · split at hstep
      · cases hstep
      · next x hx =>
        have hok : ok = true := hc x hx (by obtain ⟨_, rfl⟩ := hone _ h2 x hx; rfl)
        obtain ⟨rfl, rfl⟩ := hone _ h2 x hx
        simp only [h2, hok, if_true] at hstep
        have hd : doubled t = t.localFiles.map Prod.fst := by unfold doubled; rw [h2]
        cases hstep
        refine ⟨fun p => ?_, by simp [localBytes], Or.inr (Or.inr (Or.inr (Or.inr (Or.inr ⟨h1, rfl, _, rfl, h3⟩))))⟩
        have := hcount p
        rw [hd] at this
        simp only [doubled, copies, List.set_cons_zero, List.countP_append, List.countP_nil, List.map_nil] at this ⊢
        omega
    · split at hstep
      · cases hstep
      · next x hx =>
        obtain ⟨rfl, rfl⟩ := hone _ h3 x hx
        have hd : doubled t = [] := by unfold doubled; rw [h3]
        simp only [hd] at hcount
        simp only [h3, h4] at hstep
        cases hstep
        refine ⟨fun p => ?_, h.bytes, Or.inl ⟨rfl, h1, ?_⟩⟩
        · have := hcount p
          simpa [doubled, copies] using this
        · simp [localBytes, h2, u64]
  | mark =>
    simp only [Table.step] at hstep
    split at hstep <;> cases hstep
    exact ⟨h.count, h.bytes, h.state⟩
  | discard =>
    have hu : t.unreported = [] := hc
    simp only [Table.step] at hstep
    split at hstep
    · next hr =>
      rw [List.isEmpty_iff] at hr
      cases hstep
      refine ⟨fun p => ?_, by simp [localBytes], Or.inl ⟨hr, hu, by simp [localBytes]⟩⟩
      have := h.count p
      rw [doubled_nil hr] at this
      rw [doubled_nil (by exact hr)]
      simp only [copies, List.countP_append, List.countP_nil, List.map_nil] at this ⊢
      omega
    · cases hstep
  | setBatchSize value =>
    simp only [Table.step] at hstep
    split at hstep
    · split at hstep <;> cases hstep
      exact ⟨h.count, h.bytes, h.state⟩
    · split at hstep <;> cases hstep
      exact ⟨h.count, h.bytes, h.state⟩
  | restart disk =>
    obtain ⟨hw, hb⟩ := hc
    simp only [Table.step] at hstep
    have hd : doubled t = [] := by
      unfold doubled
      split
      · next c files hr =>
        have := hw _ (by rw [hr]; exact List.mem_cons_self ..)
        cases this
      · rfl
    have hmap : ((t.localFiles.map fun f => (f.1, disk f.1)).map Prod.snd).sum = (t.localFiles.map fun f => disk f.1).sum := by
      rw [List.map_map]; rfl
    have hsize : u64 ((((t.localFiles.map fun f => (f.1, disk f.1)).map Prod.snd).sum : Nat) : Int) =
        ((t.localFiles.map fun f => (f.1, disk f.1)).map Prod.snd).sum := u64_of_lt (by rw [hmap]; exact hb)
    have hnew : CalmInv { t with
        localFiles := t.localFiles.map fun f => (f.1, disk f.1)
        size := some (u64 ((((t.localFiles.map fun f => (f.1, disk f.1)).map Prod.snd).sum : Nat) : Int))
        dropped := false, unreported := [], running := [] } := by
      refine ⟨fun p => ?_, by unfold localBytes; rw [hmap]; exact hb, Or.inl ⟨rfl, rfl, ?_⟩⟩
      · have := h.count p
        rw [hd] at this
        have hm : (t.localFiles.map fun f => (f.1, disk f.1)).map Prod.fst = t.localFiles.map Prod.fst := by rw [List.map_map]; rfl
        simp only [copies, hm, doubled] at this ⊢
        exact this
      · rw [hsize]; rfl
    split at hstep
    · split at hstep
      · exact hnew.begin rfl rfl (by rw [hsize]; rfl) hstep
      · cases hstep; exact hnew
    · cases hstep; exact hnew

theorem calm_run {ops : List (Op ρ)} {t t' : Table ρ} (h : CalmInv t) (hc : CalmRun t ops) (hrun : t.run ops = some t') : CalmInv t' := by
  induction ops generalizing t with
  | nil => cases hrun; exact h
  | cons op ops ih =>
    simp only [Table.run] at hrun
    obtain ⟨t₁, h1, h2⟩ := Option.bind_eq_some_iff.mp hrun
    exact ih (calm_step h hc.1 h1) (hc.2 t₁ h1) h2

/-- What holds in every history: only committed files are copied, and a transfer deletes after it has written. -/
structure Inv (t : Table ρ) : Prop where
  known : ∀ f ∈ copies t, f ∈ t.committed
  scanned : ∀ c files, ⟨c, .scanned files⟩ ∈ t.running → ∀ f ∈ files, f ∈ t.committed
  written : ∀ c files, ⟨c, .written files⟩ ∈ t.running → ∀ f ∈ files, f ∈ t.remoteFiles

theorem inv_new (batchSize : Option Nat) : Inv (Table.new (ρ := ρ) batchSize) :=
  ⟨fun f hf => by simp [copies, Table.new] at hf, fun c files h => by simp [Table.new] at h, fun c files h => by simp [Table.new] at h⟩

theorem Inv.begin {t t' : Table ρ} (h : Inv t) (hb : t.begin = some t') : Inv t' := by
  unfold Table.begin at hb
  split at hb
  · cases hb; exact h
  · split at hb <;> cases hb
    refine ⟨h.known, fun c files hm => ?_, fun c files hm => ?_⟩
    · simp only [List.mem_append, List.mem_singleton, Transfer.mk.injEq, reduceCtorEq, and_false, or_false] at hm
      exact h.scanned c files hm
    · simp only [List.mem_append, List.mem_singleton, Transfer.mk.injEq, reduceCtorEq, and_false, or_false] at hm
      exact h.written c files hm

theorem Inv.erase {t : Table ρ} (h : Inv t) (i : Nat) : Inv { t with running := t.running.eraseIdx i } :=
  ⟨h.known, fun c files hm => h.scanned c files (List.mem_of_mem_eraseIdx hm),
    fun c files hm => h.written c files (List.mem_of_mem_eraseIdx hm)⟩

theorem inv_step {t t' : Table ρ} {op : Op ρ} (h : Inv t) (hstep : t.step op = some t') : Inv t' := by
  cases op with
  | commit file size =>
    cases hstep
    refine ⟨fun f hf => ?_, fun c files hm f hf => List.mem_append_left _ (h.scanned c files hm f hf), h.written⟩
    have := h.known f
    simp only [copies, List.map_append, List.mem_append, List.map_cons, List.map_nil, List.mem_singleton] at this hf ⊢
    rcases hf with ((hf | hf) | hf) | hf
    · exact Or.inl (this (Or.inl (Or.inl hf)))
    · exact Or.inr hf
    · exact Or.inl (this (Or.inl (Or.inr hf)))
    · exact Or.inl (this (Or.inr hf))
  | report i =>
    simp only [Table.step] at hstep
    split at hstep
    · cases hstep
    · next f hf =>
      have hnew : Inv { t with unreported := t.unreported.eraseIdx i, size := some (u64 ((t.size.getD 0 : Int) + (f.2 : Int))) } :=
        ⟨h.known, h.scanned, h.written⟩
      split at hstep
      · split at hstep
        · exact hnew.begin hstep
        · cases hstep; exact hnew
      · cases hstep; exact hnew
  | request threshold =>
    simp only [Table.step] at hstep
    split at hstep
    · cases hstep; exact h
    · split at hstep
      · exact h.begin hstep
      · cases hstep; exact h
  | advance i ok =>
    simp only [Table.step] at hstep
    split at hstep
    · cases hstep
    · next x hx =>
      have hmem := List.mem_of_getElem? hx
      obtain ⟨captured, stage⟩ := x
      dsimp only at hstep
      split at hstep
      · split at hstep <;> cases hstep
        · refine ⟨h.known, fun c files hm f hf => ?_, fun c files hm => ?_⟩
          · rcases List.mem_or_eq_of_mem_set hm with hm | hm
            · exact h.scanned c files hm f hf
            · cases hm
              exact h.known f (List.mem_append_left _ (List.mem_append_left _ hf))
          · rcases List.mem_or_eq_of_mem_set hm with hm | hm
            · exact h.written c files hm
            · cases hm
        · exact h.erase i
      · next files₀ =>
        split at hstep <;> cases hstep
        · refine ⟨fun f hf => ?_, fun c files hm => ?_, fun c files hm f hf => ?_⟩
          · have := h.known f
            simp only [copies, List.mem_append] at this hf
            rcases hf with (hf | hf | hf) | hf
            · exact this (Or.inl (Or.inl hf))
            · exact this (Or.inl (Or.inr hf))
            · exact h.scanned _ _ hmem f hf
            · exact this (Or.inr hf)
          · rcases List.mem_or_eq_of_mem_set hm with hm | hm
            · exact h.scanned c files hm
            · cases hm
          · rcases List.mem_or_eq_of_mem_set hm with hm | hm
            · exact List.mem_append_left _ (h.written c files hm f hf)
            · cases hm
              exact List.mem_append_right _ hf
        · exact h.erase i
      · split at hstep <;> cases hstep
        · refine ⟨fun f hf => ?_, fun c files hm => ?_, fun c files hm => ?_⟩
          · have := h.known f
            simp only [copies, List.mem_append, List.map_nil, List.not_mem_nil, false_or] at this hf
            exact this (hf.elim (fun h => Or.inl (Or.inr h)) Or.inr)
          · rcases List.mem_or_eq_of_mem_set hm with hm | hm
            · exact h.scanned c files hm
            · cases hm
          · rcases List.mem_or_eq_of_mem_set hm with hm | hm
            · exact h.written c files hm
            · cases hm
        · exact h.erase i
      · split at hstep <;> cases hstep
        exact ⟨h.known, (h.erase i).scanned, (h.erase i).written⟩
  | mark =>
    simp only [Table.step] at hstep
    split at hstep <;> cases hstep
    exact ⟨h.known, h.scanned, h.written⟩
  | discard =>
    simp only [Table.step] at hstep
    split at hstep <;> cases hstep
    refine ⟨fun f hf => ?_, h.scanned, h.written⟩
    have := h.known f
    simp only [copies, List.mem_append, List.map_nil, List.not_mem_nil, false_or] at this hf
    rcases hf with hf | hf | hf
    · exact this (Or.inl (Or.inr hf))
    · exact this (Or.inr hf)
    · exact this (Or.inl (Or.inl hf))
  | setBatchSize value =>
    simp only [Table.step] at hstep
    split at hstep
    · split at hstep <;> cases hstep
      exact ⟨h.known, h.scanned, h.written⟩
    · split at hstep <;> cases hstep
      exact ⟨h.known, h.scanned, h.written⟩
  | restart disk =>
    simp only [Table.step] at hstep
    have hnew : Inv { t with
        localFiles := t.localFiles.map fun f => (f.1, disk f.1)
        size := some (u64 ((((t.localFiles.map fun f => (f.1, disk f.1)).map Prod.snd).sum : Nat) : Int))
        dropped := false, unreported := [], running := [] } := by
      have hm : (t.localFiles.map fun f => (f.1, disk f.1)).map Prod.fst = t.localFiles.map Prod.fst := by rw [List.map_map]; rfl
      exact ⟨fun f hf => h.known f (by simpa only [copies, hm] using hf), fun c files hm => by simp at hm, fun c files hm => by simp at hm⟩
    split at hstep
    · split at hstep
      · exact hnew.begin hstep
      · cases hstep; exact hnew
    · cases hstep; exact hnew

theorem inv_run {ops : List (Op ρ)} {t t' : Table ρ} (h : Inv t) (hrun : t.run ops = some t') : Inv t' := by
  induction ops generalizing t with
  | nil => cases hrun; exact h
  | cons op ops ih =>
    simp only [Table.run] at hrun
    obtain ⟨t₁, h1, h2⟩ := Option.bind_eq_some_iff.mp hrun
    exact ih (inv_step h h1) h2

end ModelarDB.Lemmas.DataTransfer
