import Verif.Disk.SearchModel

/-! Specification vocabulary for C81: searching a disk index. -/

namespace Verif.DiskSearch

open Verif.Queue Verif.Search

variable {V A D : Type} [LinearOrder D]

/-- A usable index: every point is stored, the entry point and all edges are points, and no adjacency
list is longer than the graph degree. -/
structure WellFormed (ix : Index V A D) : Prop where
  stored : ∀ i, i < ix.numPoints → ∃ v, ix.node i = some v
  medoid : ix.medoid < ix.numPoints
  edges : ∀ i v, ix.node i = some v → ∀ j ∈ v.adj, j < ix.numPoints
  degree : ∀ i v, ix.node i = some v → v.adj.length ≤ ix.maxVectors
  capacity : 1 ≤ ix.maxVectors

/-- A sorting function: a permutation of its input, in order of distance. Ties may come in any order. -/
structure IsSort (srt : List (Nat × A × D) → List (Nat × A × D)) : Prop where
  perm : ∀ l, (srt l).Perm l
  sorted : ∀ l, (srt l).Pairwise fun a b => a.2.2 ≤ b.2.2

/-- The stored graph with the quantized distances; only the vertices in `E` have out-edges. -/
def Index.graphOn (ix : Index V A D) (E : List Nat) : Graph Nat D where
  adj i := if i ∈ E then ((ix.node i).map (·.adj)).getD [] else []
  dist := ix.quant

/-- The stored graph with the quantized distances. -/
def Index.graph (ix : Index V A D) : Graph Nat D where
  adj i := ((ix.node i).map (·.adj)).getD []
  dist := ix.quant

/-- `r` is what the index stores for its id: the data, the vector and the full-precision distance. -/
def Faithful (ix : Index V A D) (r : Nat × D × A × V) : Prop :=
  ∃ v, ix.node r.1 = some v ∧ r.2.1 = ix.exact v.vec ∧ r.2.2.1 = v.assoc ∧ r.2.2.2 = v.vec

/-- `results` are the `k` closest of `cands` by full-precision distance, closest first. -/
structure TopK (ix : Index V A D) (cands : List Nat) (k : Nat) (results : List (Nat × D × A × V)) : Prop where
  mem : ∀ r ∈ results, r.1 ∈ cands
  faithful : ∀ r ∈ results, Faithful ix r
  distinct : (results.map (·.1)).Nodup
  sorted : results.Pairwise fun a b => a.2.1 ≤ b.2.1
  count : results.length = min k cands.length
  best : ∀ i ∈ cands, i ∉ results.map (·.1) → ∀ v, ix.node i = some v → ∀ r ∈ results, r.2.1 ≤ ix.exact v.vec

/-- What `search` returns for the valid results `valid` of `k` requested: the rest of the `k` places
holds id 0, the zero distance and the default data. -/
def padded (zero : D) (dflt : A) (k : Nat) (valid : List (Nat × D × A × V)) : List (Nat × D × A) :=
  valid.map (fun r => (r.1, r.2.1, r.2.2.1)) ++ List.replicate (k - valid.length) (0, zero, dflt)

end Verif.DiskSearch
