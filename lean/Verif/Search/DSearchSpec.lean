import Verif.Search.DSearchModel
import Verif.Search.Spec
import Verif.Queue.DiverseSpec

/-! # What a diversity-aware search should return -/

namespace Verif.Search

variable {I A D : Type} [DecidableEq I] [DecidableEq A] [LinearOrder D]

/-- The vertices among `ids` that can be a result: with an attribute and a comparable distance. -/
def eligible (G : Graph I D) (attr : I → Option A) (ids : List I) : List ((I × A) × D) :=
  ids.filterMap fun i => match attr i, G.dist i with
    | some a, some d => some ((i, a), d)
    | _, _ => none

/-- Of the candidates `g`, those with fewer than `dk` closer ones of their attribute. -/
def closestPer (dk : Nat) (g : List ((I × A) × D)) : List ((I × A) × D) :=
  g.filter fun x => decide (g.countP (fun y => decide (y.1.2 = x.1.2 ∧ y.2 < x.2)) < dk)

/-- The vertices a diverse search can walk through. -/
def Passable (G : Graph I D) (attr : I → Option A) (x : I) : Prop := attr x ≠ none ∧ G.dist x ≠ none

end Verif.Search
