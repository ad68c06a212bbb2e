import Verif.Queue.Model

/-! Specification vocabulary for the search properties (C13–C18, C57, C59, C60). -/

namespace Verif.Search

variable {I D : Type}

/-- Vertices reachable from `starts` along edges of `adj`. -/
inductive Reach (adj : I → List I) (starts : List I) : I → Prop
  | start {x : I} (h : x ∈ starts) : Reach adj starts x
  | step {x y : I} (h : Reach adj starts x) (e : y ∈ adj x) : Reach adj starts y

/-- Vertices reachable from `starts` along paths all of whose vertices other than the last satisfy
`p` (a path is followed only out of vertices satisfying `p`). -/
inductive ReachVia (adj : I → List I) (p : I → Prop) (starts : List I) : I → Prop
  | start {x : I} (h : x ∈ starts) : ReachVia adj p starts x
  | step {x y : I} (h : ReachVia adj p starts x) (hp : p x) (e : y ∈ adj x) :
      ReachVia adj p starts y

/-- A finite graph: `V` lists all its vertices, contains the given ones, and is closed under edges.
Edges to vertices without vector or out-edges are allowed: such a vertex is in `V` with an empty
list. -/
structure FiniteGraph (V : List I) (adj : I → List I) (starts : List I) : Prop where
  starts_mem : ∀ x ∈ starts, x ∈ V
  closed : ∀ x ∈ V, ∀ y ∈ adj x, y ∈ V

end Verif.Search
