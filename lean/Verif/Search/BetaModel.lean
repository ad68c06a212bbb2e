import Verif.Search.Model
import Mathlib.Algebra.Order.Field.Rat
import Mathlib.Tactic.Linarith

/-!
# Model of beta-filtered search

`diskann-providers/src/model/graph/provider/layers/betafilter.rs` on top of the k-nearest-neighbour search of
`Verif.Search.Model`.

Simplifications. Accessor errors are not modelled. The label provider is a function (no label changes during
one search). The product `distance * beta` is a function `mul` on the distances; what the theorems need of it
is in `Verif.Search.Beta.Scaling`, and `Scaling` is shown for exact and for monotonically rounded products with a factor
in (0, 1]. A NaN is `none`, and `mul` may return it.
-/

namespace Verif.Search.Beta

open Verif.Queue

variable {I D : Type} [DecidableEq I] [LinearOrder D]

/-- What a search uses of a search accessor (diskann/src/graph/glue.rs 125–228): start points, adjacency lists and
distances, and `terminate_early` before each round. -/
structure Accessor (I D : Type) where
  starts : List I
  graph : Graph I D
  stop : Nat → Bool

/-- `BetaFilter` (betafilter.rs 39–44) without its inner strategy: the labels and the product with `beta`. -/
structure Filter (I D : Type) where
  matches? : I → Bool
  mul : D → Option D

/-- `Filter::apply` (betafilter.rs 170–176); a NaN times anything is a NaN. -/
def Filter.apply (f : Filter I D) (id : I) (distance : Option D) : Option D :=
  if f.matches? id then distance.bind f.mul else distance

/-- `search_accessor` and `impl SearchAccessor for BetaAccessor` (betafilter.rs 118–130, 186–224): the start points are
those of the inner accessor, `start_point_distances` and `expand_beam` pass the inner calls on with the adjusted
distance. `terminate_early` is not implemented by the wrapper, so it is the provided method, which returns `false`
(glue.rs 223–230). -/
def wrap (f : Filter I D) (a : Accessor I D) : Accessor I D where
  starts := a.starts
  graph := { adj := a.graph.adj, dist := fun i => f.apply i (a.graph.dist i) }
  stop := fun _ => false

/-- `Knn::search` (search/knn_search.rs 130–172) with an accessor; the default post-processing of the wrapped strategy is
that of the inner one on the candidates found (betafilter.rs 62–91, 132–147). -/
def search (pad : D) (a : Accessor I D) (l beam fuel : Nat) (b : Buf I D) : Option (St I D × Nat × Buf I D) :=
  knnSearch pad a.graph a.starts l beam a.stop fuel b

/-- The check of `beta` in `BetaSearchPhase::validate` (diskann-benchmark/src/inputs/graph_index.rs 228–233); `none` is a
NaN, whose comparisons are false. -/
def validBeta : Option Rat → Bool
  | none => true
  | some b => !(decide (b ≤ 0) || decide (1 < b))

/-- `distance * beta` for rational values; `none` is a NaN. -/
def times (beta : Option Rat) (d : Rat) : Option Rat := beta.map (d * ·)

end Verif.Search.Beta
