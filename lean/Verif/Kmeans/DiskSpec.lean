import Verif.Kmeans.Spec
import Verif.Kmeans.DiskModel

/-! # What the clustering of the disk index means, apart from the code -/

namespace Verif.Kmeans.Disk

open Verif.Kmeans

variable {K : Type} [Field K] [LinearOrder K]

/-- The points assigned to center `c`, in order. -/
def pointsOf (assign : List Nat) (c : Nat) : List Nat := (List.range assign.length).filter fun i => assign[i]? = some c

/-- The part of the loss that the residual contains: the points `i` for which `i / 16384` is a multiple of 32. -/
def seenLoss (data centers : List (List K)) (assign : List Nat) : K :=
  ∑ i ∈ Finset.range data.length,
    if i / 16384 % 32 = 0 then distSq (data.getD i []) (centers.getD (assign.getD i 0) []) else 0

/-- The test for ending after iteration `i`: the residual is tiny or, except after the first iteration, it improved by less
than a factor of 0.00001. -/
def Stop (i : Nat) (old new : K) : Prop := (i ≠ 0 ∧ (old - new) / new < 1 / 100000) ∨ new < 1 / 8388608

/-- An order in which a heap may give back what was pushed: the same pairs, nearest first. -/
def HeapOrder (order : List (K × Nat) → List (K × Nat)) : Prop :=
  ∀ l, (order l).Perm l ∧ (order l).Pairwise fun p q => p.1 ≤ q.1

/-- `cs` are `k` different centers, nearest first, and no other center is nearer than one of them. -/
structure KNearest (centers : List (List K)) (x : List K) (k : Nat) (cs : List Nat) : Prop where
  length : cs.length = k
  inside : ∀ c ∈ cs, c < centers.length
  nodup : cs.Nodup
  sorted : cs.Pairwise fun a b => distSq x (centers.getD a []) ≤ distSq x (centers.getD b [])
  best : ∀ c ∈ cs, ∀ j < centers.length, j ∉ cs → distSq x (centers.getD c []) ≤ distSq x (centers.getD j [])

/-- The random numbers are what the generators promise: positions of points and darts in `[0, 1)`. -/
def Fair (n : Nat) (d : Draws K) : Prop :=
  d.first < n ∧ (∀ t, 0 ≤ d.dart t ∧ d.dart t < 1) ∧ ∀ j, d.fill j < n

/-- `i` is the position whose part of `[0, ∑ D)` contains `t`: for a uniform `t` its probability is proportional to `D i`. -/
def Hit (D : Nat → K) (t : K) (i : Nat) : Prop :=
  ∑ j ∈ Finset.range i, D j ≤ t ∧ t < ∑ j ∈ Finset.range (i + 1), D j

/-- The positions chosen by k-means++: the first is the one drawn, each further one is drawn with a probability proportional to
its squared distance from the rows chosen before. -/
structure Chosen (data : List (List K)) (d : Draws K) (idx : List Nat) : Prop where
  first : idx[0]? = some d.first
  inside : ∀ i ∈ idx, i < data.length
  distinct : (rowsAt data idx).Nodup
  next : ∀ c i, 0 < c → idx[c]? = some i → ∃ D : Nat → K,
    (∀ j < data.length, IsMinDist (rowsAt data (idx.take c)) (data.getD j []) (D j)) ∧
    0 < ∑ j ∈ Finset.range data.length, D j ∧
    Hit D (d.dart c * ∑ j ∈ Finset.range data.length, D j) i

end Verif.Kmeans.Disk
