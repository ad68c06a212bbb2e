import Mathlib.Order.Interval.Finset.Nat
import Verif.Runbook.Model

/-! # What a runbook means

The set of active tags, and which stages may follow. -/

namespace Verif.Runbook.Spec

/-- The tags of a range. -/
def tags (r : Rng) : Finset Nat := Finset.Ico r.lo r.hi

/-- The active tags after a stage. Inserted tags are new; replaced and deleted tags are active. -/
def after (A : Finset Nat) : Stage → Option (Finset Nat)
  | .search _ => some A
  | .insert r => if Disjoint A (tags r) then some (A ∪ tags r) else none
  | .replace _ r => if tags r ⊆ A then some A else none
  | .delete r => if tags r ⊆ A then some (A \ tags r) else none

/-- The active tags after each stage. -/
def history : Finset Nat → List Stage → Option (List (Finset Nat))
  | _, [] => some []
  | A, g :: gs =>
    match after A g with
    | none => none
    | some B => (history B gs).map (B :: ·)

/-- The largest number of tags active at once. -/
def peak (As : List (Finset Nat)) : Nat := (As.map Finset.card).foldr max 0

/-- The tags a stage inserts. -/
def inserted : Stage → Finset Nat
  | .insert r => tags r
  | _ => ∅

/-- No stage has an empty range of tags. -/
def NonEmpty : Stage → Prop
  | .search _ => True
  | .insert r => r.lo < r.hi
  | .replace o r => o.lo < o.hi ∧ r.lo < r.hi
  | .delete r => r.lo < r.hi

end Verif.Runbook.Spec
