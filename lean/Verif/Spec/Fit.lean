/-
Offering data to a model one after the other.
-/
namespace ModelarDB.Spec

/-- The state after `step` has accepted all of `xs` in order, `none` if it rejects one of them. -/
def acceptAll {σ α : Type} (step : σ → α → σ × Bool) (s : σ) (xs : List α) : Option σ :=
  xs.foldlM (fun s x => if (step s x).2 then some (step s x).1 else none) s

end ModelarDB.Spec
