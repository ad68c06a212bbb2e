import Mathlib.Algebra.Field.Defs
import Mathlib.Algebra.Order.Field.Basic
import Mathlib.Algebra.BigOperators.Group.List.Basic
import Mathlib.Algebra.BigOperators.Intervals
import Mathlib.Data.List.Dedup
import Verif.Kmeans.Model

/-! # What clustering means, apart from the code -/

namespace Verif.Kmeans

variable {K : Type} [Field K] [LinearOrder K]

/-- The squared Euclidean distance. -/
def distSq (x y : List K) : K := (List.zipWith (fun a b => (a - b) * (a - b)) x y).sum

/-- Every row has `n` entries. -/
def Rect (n : Nat) (rows : List (List K)) : Prop := ∀ r ∈ rows, r.length = n

/-- Center `i` is the closest to `x`, and the first of those that are equally close. -/
def IsNearest (centers : List (List K)) (x : List K) (i : Nat) : Prop :=
  ∃ c, centers[i]? = some c ∧
    ∀ (j : Nat) (e : List K), centers[j]? = some e → distSq x c ≤ distSq x e ∧ (j < i → distSq x c < distSq x e)

/-- Every row is assigned to its closest center. -/
def Nearest (data centers : List (List K)) (assign : List Nat) : Prop :=
  assign.length = data.length ∧ ∀ (i : Nat) (x : List K), data[i]? = some x → ∃ a, assign[i]? = some a ∧ IsNearest centers x a

/-- The sum of the squared distances between the rows and the centers they are assigned to. -/
def loss (data centers : List (List K)) (assign : List Nat) : K :=
  (List.zipWith (fun x a => distSq x (centers.getD a [])) data assign).sum

/-- The rows assigned to center `c`. -/
def members (data : List (List K)) (assign : List Nat) (c : Nat) : List (List K) :=
  ((data.zip assign).filter (fun p => p.2 = c)).map (·.1)

/-- The mean of a list of vectors with `n` entries; zero if there is none. -/
def mean (n : Nat) (xs : List (List K)) : List K :=
  if xs = [] then List.replicate n 0
  else (List.range n).map fun j => (xs.map (·.getD j 0)).sum / (xs.length : K)

/-- The smallest squared distance between `x` and one of `chosen`: `d` is attained and a lower bound. -/
def IsMinDist (chosen : List (List K)) (x : List K) (d : K) : Prop :=
  (∃ c ∈ chosen, distSq x c = d) ∧ ∀ c ∈ chosen, d ≤ distSq x c

/-- The random numbers are what the generators promise: a row of the data and thresholds in `[0, s)`. -/
def Fair (data : List (List K)) (d : Draws K) : Prop :=
  d.first < data.length ∧ ∀ c s, 0 < s → 0 ≤ d.threshold c s ∧ d.threshold c s < s

/-- The rows at the positions `idx`. -/
def rowsAt (data : List (List K)) (idx : List Nat) : List (List K) := idx.map fun i => data.getD i []

/-- `i` is the position at which the running sum of `D` reaches `t`: for a uniform `t` in `[0, ∑ D)` its probability is
proportional to `D i`. For `t = 0` it is the first position with `D i > 0`. -/
def Reaches (D : Nat → K) (t : K) (i : Nat) : Prop :=
  0 < D i ∧ t ≤ ∑ j ∈ Finset.range (i + 1), D j ∧
    (∑ j ∈ Finset.range i, D j < t ∨ t = 0 ∧ ∑ j ∈ Finset.range i, D j = 0)

/-- The positions chosen by k-means++: the first is the one drawn, and each further one is drawn with a probability
proportional to its squared distance from the rows chosen before. -/
structure Chosen (data : List (List K)) (d : Draws K) (idx : List Nat) : Prop where
  first : idx[0]? = some d.first
  inside : ∀ i ∈ idx, i < data.length
  distinct : (rowsAt data idx).Nodup
  next : ∀ c i, 0 < c → idx[c]? = some i → ∃ D : Nat → K,
    (∀ j < data.length, IsMinDist (rowsAt data (idx.take c)) (data.getD j []) (D j)) ∧
    0 < ∑ j ∈ Finset.range data.length, D j ∧
    Reaches D (d.threshold c (∑ j ∈ Finset.range data.length, D j)) i

end Verif.Kmeans
