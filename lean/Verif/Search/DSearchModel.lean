import Verif.Queue.DiverseModel
import Verif.Search.Model

/-!
# Model of the diversity-aware graph search

`diskann/src/graph/search/diverse_search.rs`: `search_internal` (diskann/src/graph/index.rs) over a
`DiverseNeighborQueue`. The simplifications are those of `Verif.Search.Model`.
-/

namespace Verif.Search

open Verif.Queue

variable {I A D : Type} [DecidableEq I] [DecidableEq A] [LinearOrder D]

/-- The errors of the constructors (diverse_search.rs:27–54). -/
inductive DivErr where
  | totalKZero
  | diverseKZero
  | diverseKGreaterThanTotalK
  | lTooSmall
deriving DecidableEq

/-- `DiverseSearchParams::new` and `Diverse::new` (diverse_search.rs:79–97, 117–132) on `l_value`, `total_k_value` and
`diverse_results_k`. -/
def divCheck (l k dk : Nat) : Option DivErr :=
  if dk = 0 then some .diverseKZero
  else if k = 0 then some .totalKZero
  else if l < k then some .lTooSmall
  else none

/-- The scratch made by `create_scratch` (diverse_search.rs:147–177), with the two logs of `St`. -/
structure DSt (I A D : Type) where
  best : DQueue I A D
  visited : List I
  cmps : Nat
  hops : Nat
  computed : List I
  expanded : List I

/-- `create_scratch` (diverse_search.rs:147–177). -/
def DSt.create (l k dk : Nat) (attr : I → Option A) : DSt I A D :=
  { best := DQueue.new l k dk attr, visited := [], cmps := 0, hops := 0, computed := [], expanded := [] }

/-- Filling the beam (index.rs:1966–1971). -/
def dfillBeam (q : DQueue I A D) : Nat → Option (List I × DQueue I A D)
  | 0 => some ([], q)
  | n + 1 =>
    match q.pop with
    | none => none
    | some (none, q') => some ([], q')
    | some (some x, q') =>
      match dfillBeam q' n with
      | none => none
      | some r => some (x.1 :: r.1, r.2)

/-- The insertion of the neighbours (index.rs:1986–1988). -/
def dinsertAll (pad : D) (G : Graph I D) (q : DQueue I A D) (ids : List I) : Option (DQueue I A D) :=
  ids.foldlM (fun q i => q.insert pad i (G.dist i)) q

/-- One round of `search_internal` (index.rs:1962–1992). -/
def diterate (pad : D) (G : Graph I D) (beam : Nat) (s : DSt I A D) : Option (DSt I A D) :=
  match dfillBeam s.best beam with
  | none => none
  | some (nodes, q) =>
    let r := expandBeam G s.visited nodes
    match dinsertAll pad G q r.2 with
    | none => none
    | some q' =>
      some { best := q', visited := r.1, cmps := s.cmps + r.2.length, hops := s.hops + nodes.length,
             computed := s.computed ++ r.2, expanded := s.expanded ++ nodes }

/-- The loop of `search_internal` (index.rs:1961–1993) with `has_notvisited_node` of the diverse queue
(diverse_priority_queue.rs:234–236). -/
def dsearchLoop (pad : D) (G : Graph I D) (beam : Nat) (stop : Nat → Bool) : Nat → Nat → DSt I A D → Option (DSt I A D)
  | 0, _, _ => none
  | fuel + 1, n, s =>
    if s.best.global.hasNotVisited && !stop n then
      match diterate pad G beam s with
      | none => none
      | some s' => dsearchLoop pad G beam stop fuel (n + 1) s'
    else some s

/-- The start-point callback of `search_internal` (index.rs:1952–1956). -/
def daddStart (pad : D) (G : Graph I D) (s : DSt I A D) (i : I) : Option (DSt I A D) :=
  match s.best.insert pad i (G.dist i) with
  | none => none
  | some q =>
    some { s with best := q, visited := if i ∈ s.visited then s.visited else s.visited ++ [i],
                  cmps := s.cmps + 1, computed := s.computed ++ [i] }

/-- The traversal of `Diverse::search` (diverse_search.rs:203–214). -/
def divTraverse (pad : D) (G : Graph I D) (starts : List I) (l k dk : Nat) (attr : I → Option A) (beam : Nat)
    (stop : Nat → Bool) (fuel : Nat) : Option (DSt I A D) :=
  match starts.foldlM (daddStart pad G) (DSt.create l k dk attr) with
  | none => none
  | some s => dsearchLoop pad G beam stop fuel 0 s

/-- The candidates handed to the post-processor (diverse_search.rs:217–226). -/
def DSt.candidates (s : DSt I A D) (l : Nat) : List (I × D) := s.best.postProcess.iter.take l

/-- `Diverse::search` (diverse_search.rs:184–234) with the default post-processing of the nearest-neighbour search, after
the checks of the parameters: the final scratch, the result count, the buffer. -/
def divSearch (pad : D) (G : Graph I D) (starts : List I) (l k dk : Nat) (attr : I → Option A) (beam : Nat)
    (stop : Nat → Bool) (fuel : Nat) (b : Buf I D) : Option (DSt I A D × Nat × Buf I D) :=
  match divTraverse pad G starts l k dk attr beam stop fuel with
  | none => none
  | some s => let r := postProcess starts (s.candidates l) b; some (s, r.1, r.2)

end Verif.Search
