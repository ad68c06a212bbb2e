import Verif.Kmeans.DiskSpec
import Mathlib.Data.Rat.Floor

/-! # What sharding means, apart from the code -/

namespace Verif.Shard.Spec

open Verif.Kmeans Verif.Kmeans.Disk

variable {K : Type} [Field K] [LinearOrder K]

/-- `assign` gives every row its `k` nearest centers, and equal rows the same ones. -/
structure Split (centers rows : List (List K)) (k : Nat) (assign : List (List Nat)) : Prop where
  length : assign.length = rows.length
  nearest : ∀ (i : Nat) (x : List K) (cs : List Nat), rows[i]? = some x → assign[i]? = some cs → KNearest centers x k cs
  same : ∀ (i j : Nat) (x : List K), rows[i]? = some x → rows[j]? = some x → assign[i]? = assign[j]?

/-- The number of rows in shard `c`. -/
def shardSize (assign : List (List Nat)) (c : Nat) : Nat := assign.countP fun cs => c ∈ cs

/-- The sum of the squared distances of all rows to any one of them is below `f32::MAX`. -/
def Bounded (big : K) (rows : List (List K)) : Prop := ∀ x ∈ rows, (rows.map fun r => distSq r x).sum < big

/-- Every draw of a uniform number is in `[0, 1)`, and there is one for every row. -/
def Uniform (n : Nat) (draws : List Rat) : Prop := draws.length = n ∧ ∀ d ∈ draws, 0 ≤ d ∧ d < 1

end Verif.Shard.Spec
