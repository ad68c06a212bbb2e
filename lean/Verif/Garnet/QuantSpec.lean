import Verif.Garnet.QuantModel
/-
What a user relies on when a Garnet vector set becomes quantized.
-/
namespace Verif.Garnet.Quant

variable {V C : Type}

/-- Every stored vector has its code, and the start point has its code at hand: searches by codes find what
searches by vectors find. -/
def Covered (k : V → C) (s : State V C) : Prop :=
  (∀ i v, s.vec i = some v → s.code i = some (k v)) ∧ ∀ v, s.vec 0 = some v → s.startCode = some (k v)

/-- Garnet starts each task once, and tells all the same number of tasks; storage calls succeed. -/
def Clean (s : State V C) : Event V → Prop
  | .start idx count =>
    (∀ t ∈ s.tasks, t.idx ≠ idx) ∧ ∀ l, s.limit = some l → ∀ t ∈ s.tasks, t.n = min count (l + 1)
  | .run _ ok => ok = true
  | _ => True

/-- A run of clean events. -/
inductive CleanRun (k : V → C) : State V C → List (Event V) → State V C → Prop
  | nil (s) : CleanRun k s [] s
  | cons {s e es t} : Allowed s e → Clean s e → CleanRun k (step k s e).1 es t → CleanRun k s (e :: es) t

end Verif.Garnet.Quant
