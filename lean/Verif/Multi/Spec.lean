import Mathlib.Algebra.Order.Ring.Defs
import Mathlib.Algebra.BigOperators.Group.List.Basic
import Verif.Multi.Model

/-! # Specification of multi-vector similarity -/

namespace Verif.Multi

/-- A row-major matrix whose data has the announced size. -/
def Mat.Ok {T : Type} (m : Mat T) : Prop := m.data.length = m.nrows * m.ncols

section

variable {T K : Type} [CommRing K] [LinearOrder K]

/-- The inner product of two vectors. -/
def dot (conv : T → K) (x y : List T) : K := (List.zipWith (fun a b => conv a * conv b) x y).sum

/-- `v` is the distance of the best document vector: minus the largest inner product. -/
def BestScore (conv : T → K) (q : List T) (docs : List (List T)) (v : K) : Prop :=
  (∃ d ∈ docs, v = -dot conv q d) ∧ ∀ d ∈ docs, v ≤ -dot conv q d

/-- No distance exceeds the largest float. -/
def Finite (conv : T → K) (fmax : K) (qs docs : List (List T)) : Prop :=
  ∀ q ∈ qs, ∀ d ∈ docs, -dot conv q d ≤ fmax

end

end Verif.Multi
