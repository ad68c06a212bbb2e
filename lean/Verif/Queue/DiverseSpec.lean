import Verif.Queue.DiverseModel
import Verif.Queue.Spec

/-! Specification vocabulary for C63. -/

namespace Verif.Queue

variable {I A D : Type} [DecidableEq I] [DecidableEq A] [LinearOrder D]

/-- The operations of a search on a diverse candidate list. -/
inductive DOp (I D : Type) where
  | insert (id : I) (d : Option D)
  | pop
  | clear

def dstep (pad : D) (q : DQueue I A D) : DOp I D → Option (DQueue I A D)
  | .insert id d => q.insert pad id d
  | .pop => q.pop.map (·.2)
  | .clear => some q.clear

/-- Run a history; `none` if something panicked. -/
def drun (pad : D) (q : DQueue I A D) (ops : List (DOp I D)) : Option (DQueue I A D) := ops.foldlM (dstep pad) q

/-- The candidates offered since the last clear that count: with an attribute and a comparable distance. -/
def offered (attr : I → Option A) : List (DOp I D) → List ((I × A) × D) :=
  List.foldl (fun acc op => match op with
    | .insert id (some d) => match attr id with | some a => acc ++ [((id, a), d)] | none => acc
    | .insert _ none => acc
    | .pop => acc
    | .clear => []) []

/-- `g` is the best selection of `cands` with at most `l` candidates and at most `dl` for each attribute value:
it is sorted, obeys both bounds, and a candidate is left out only if `dl` selected ones with its attribute are closer,
or `l` selected ones are closer. -/
structure DiverseBest (l dl : Nat) (cands g : List ((I × A) × D)) : Prop where
  sorted : g.Pairwise (fun x y => x.2 < y.2)
  sub : ∀ x ∈ g, x ∈ cands
  total : g.length ≤ l
  per : ∀ a, g.countP (fun x => decide (x.1.2 = a)) ≤ dl
  best : ∀ x ∈ cands, x ∉ g →
    dl ≤ g.countP (fun y => decide (y.1.2 = x.1.2 ∧ y.2 < x.2)) ∨ (g.length = l ∧ ∀ y ∈ g, y.2 < x.2)

end Verif.Queue
