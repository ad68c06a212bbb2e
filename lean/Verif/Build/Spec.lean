import Mathlib.Data.List.Basic

/-! # What a build should do -/

namespace Verif.Build

/-- The rows of a data file with their numbers. -/
def numbered {V : Type} (rows : List V) : List (Nat × V) := (List.range rows.length).zip rows

/-- The list `new` is what the prune makes of `old` at vertex `v`: kept if it is short enough, pruned otherwise. -/
def Pruned (deg : Nat) (prune : Nat → List Nat → Option (List Nat)) (v : Nat) (old new : List Nat) : Prop :=
  (old.length ≤ deg ∧ new = old) ∨ (deg < old.length ∧ prune v old = some new)

/-- How often a schedule picks task `j`. -/
def picks {α : Type} (f : α → Nat) (j : Nat) (sched : List α) : Nat := (sched.map f).count j

end Verif.Build
