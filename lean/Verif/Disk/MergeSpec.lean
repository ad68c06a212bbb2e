import Verif.Disk.MergeModel
import Verif.Disk.GraphFileSpec

/-! Specification for C71. -/

namespace Verif.Disk

/-- `v` and `w` are in one shard, whose graph has an edge from `v` to `w`. -/
def ShardEdge (idMaps : List (List Nat)) (shards : List ShardGraph) (v w : Nat) : Prop :=
  ∃ (s : Nat) (ids : List Nat) (g : ShardGraph) (i j : Nat) (l : List Nat),
    idMaps[s]? = some ids ∧ shards[s]? = some g ∧ ids[i]? = some v ∧ ids[j]? = some w ∧ g.lists[i]? = some l ∧ j ∈ l

/-- `n` points spread over shards: every point is in a shard, ids increase within a shard, and each shard has a
graph over its points, possibly with more lists at the end: shard graphs end with the list of their start point (C69). -/
structure Sharded (n : Nat) (idMaps : List (List Nat)) (shards : List ShardGraph) : Prop where
  same : shards.length = idMaps.length
  parts : 0 < idMaps.length
  inc : ∀ ids ∈ idMaps, ids.Pairwise (· < ·)
  bound : ∀ ids ∈ idMaps, ∀ v ∈ ids, v < n
  cover : ∀ v < n, ∃ ids ∈ idMaps, v ∈ ids
  graph : ∀ (s : Nat) (ids : List Nat) (g : ShardGraph), idMaps[s]? = some ids → shards[s]? = some g →
    ids.length ≤ g.lists.length ∧ g.medoid < ids.length ∧ ∀ l ∈ g.lists, ∀ j ∈ l, j < ids.length

/-- `a` and `b` are shards with a common point. -/
def Overlap (idMaps : List (List Nat)) (a b : Nat) : Prop :=
  ∃ (v : Nat) (x y : List Nat), idMaps[a]? = some x ∧ idMaps[b]? = some y ∧ v ∈ x ∧ v ∈ y

/-- Every point keeps all of its neighbours: no point has more than `R` over all of its shards. -/
def NothingCut (idMaps : List (List Nat)) (shards : List ShardGraph) (R : Nat) : Prop :=
  ∀ (v : Nat) (full : List Nat), full.Nodup → (∀ w ∈ full, ShardEdge idMaps shards v w) → full.length ≤ R

end Verif.Disk
