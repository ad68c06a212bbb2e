import Verif.Runbook.ManagedModel
import Verif.Runbook.Spec

/-! # What a runbook does to the vectors of the tags

The same stages on a table from tags to vectors. -/

namespace Verif.Runbook.Spec

variable {V : Type}

/-- The vectors of the tags after a stage. -/
def table (data : List V) (M : Nat → Option V) : Stage → Nat → Option V
  | .search _, t => M t
  | .insert r, t => if t ∈ tags r then data[t]? else M t
  | .replace o r, t => if t ∈ tags r then data[o.lo + (t - r.lo)]? else M t
  | .delete r, t => if t ∈ tags r then none else M t

/-- The vectors of the tags after all stages. -/
def tableAfter (data : List V) (M : Nat → Option V) : List Stage → Nat → Option V
  | [] => M
  | g :: gs => tableAfter data (table data M g) gs

/-- What a stage shows: a search shows the vectors of the tags of the ground truth. -/
def shows (gt : List Char → Option (List (List Nat))) (M : Nat → Option V) : Stage → Seen V
  | .search path => .found (((gt path).getD []).map fun row => row.map M)
  | _ => .done

/-- What all stages show. -/
def showsAll (data : List V) (gt : List Char → Option (List (List Nat))) (M : Nat → Option V) : List Stage → List (Seen V)
  | [] => []
  | g :: gs => shows gt M g :: showsAll data gt (table data M g) gs

/-- The data covers the offsets of a stage, a replacement has as many vectors as tags, and the ground truth of a search
loads and names active tags only. -/
def Fits (data : List V) (gt : List Char → Option (List (List Nat))) (A : Finset Nat) : Stage → Prop
  | .search path => ∃ rows, gt path = some rows ∧ ∀ row ∈ rows, ∀ t ∈ row, t ∈ A
  | .insert r => r.lo < r.hi ∧ r.hi ≤ data.length
  | .replace o r => r.lo < r.hi ∧ o.lo ≤ o.hi ∧ o.hi ≤ data.length ∧ o.hi - o.lo = r.hi - r.lo
  | .delete r => r.lo < r.hi

/-- All stages fit, each with the tags active before it. -/
def FitsAll (data : List V) (gt : List Char → Option (List (List Nat))) : Finset Nat → List Stage → Prop
  | _, [] => True
  | A, g :: gs => Fits data gt A g ∧ ∀ B, after A g = some B → FitsAll data gt B gs

/-- Every live tag has the vector of the table in a slot of its own below `bound`, and nothing else is live. -/
def Holds (M : Nat → Option V) (bound : Nat) (s : Manager × Store V) : Prop :=
  (∀ t v, M t = some v → ∃ i, s.1.slot t = some i ∧ i < bound ∧ s.2.vector i = some v) ∧
  (∀ t u i, M t ≠ none → M u ≠ none → s.1.slot t = some i → s.1.slot u = some i → t = u) ∧
  (∀ i v, s.2.vector i = some v → ∃ t, M t = some v ∧ s.1.slot t = some i)

end Verif.Runbook.Spec
