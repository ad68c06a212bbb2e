import Mathlib.Algebra.Order.Field.Rat
import Mathlib.Algebra.BigOperators.Group.List.Basic

/-!
# Specification for start points

Vectors are lists of rational coordinates. Nothing here refers to the model.
-/

namespace Verif.Start

/-- `m` is the mean of the vectors, coordinate by coordinate. -/
structure IsMean (vs : List (List Rat)) (d : Nat) (m : List Rat) : Prop where
  len : m.length = d
  coord : ∀ j < d, m[j]? = some ((vs.map fun v => v.getD j 0).sum / vs.length)

/-- Squared Euclidean distance. -/
def dist2 (a b : List Rat) : Rat := (List.zipWith (fun x y => (x - y) * (x - y)) a b).sum

/-- Position `i` holds the vector closest to `m`, and no earlier vector is as close. -/
def FirstNearest (vs : List (List Rat)) (m : List Rat) (i : Nat) : Prop :=
  ∃ v, vs[i]? = some v ∧ ∀ j w, vs[j]? = some w → dist2 m v ≤ dist2 m w ∧ (j < i → dist2 m v < dist2 m w)

/-- The value of a cell of a matrix given by its rows. -/
def cell {T : Type} (m : List (List T)) (s j : Nat) : Option T := (m[s]?).bind fun r => r[j]?

/-- One value of each of `n` equal slices of the rows, in every column: the cells of column `j` come from rows of
distinct slices. -/
def OnePerSlice {T : Type} (rows m : List (List T)) (n d : Nat) : Prop :=
  ∀ j < d, ∃ slice : Nat → Nat, (∀ s < n, slice s < n) ∧ (∀ s < n, ∀ t < n, slice s = slice t → s = t) ∧
    ∀ s < n, ∃ r x, slice s * (rows.length / n) ≤ r ∧ r < (slice s + 1) * (rows.length / n) ∧
      cell rows r j = some x ∧ cell m s j = some x

end Verif.Start
