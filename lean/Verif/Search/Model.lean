import Verif.Queue.Model
import Verif.Search.BufferModel

/-!
# Model of the greedy graph search and its variants

`diskann/src/graph/index.rs` (`search_internal`, `count_reachable_nodes`, `paged_search_with_init_ids`),
`diskann/src/graph/search/{knn_search,range_search,paged,scratch}.rs`,
`diskann/src/graph/glue.rs` (`NotInMut`,
`FilterStartPoints`, `CopyIds`, the pseudo code of `expand_beam`).

Simplifications. An accessor is a pure adjacency function and a distance function (`none` = NaN);
accessor errors (`?`) are not modelled. The visited hash set is a duplicate-free list; only membership
and emptiness of it are used. `u32` counters are `Nat`. `computed` and `expanded` are logs of the
distance computations and vertex expansions performed; the code has no such fields, and nothing in the
model reads them. Loops carry fuel: `none` is a panic or exhausted fuel, and the termination theorems
exclude both.
-/

namespace Verif.Search

open Verif.Queue

variable {I D : Type} [DecidableEq I] [LinearOrder D]

/-- What a search accessor gives access to. -/
structure Graph (I D : Type) where
  adj : I → List I
  dist : I → Option D

/-- `SearchScratch` (search/scratch.rs:30–72), with the two logs. `in_range` and `range_frontier`
are in `RangeSt`. -/
structure St (I D : Type) where
  best : Queue I D
  visited : List I
  cmps : Nat
  hops : Nat
  computed : List I
  expanded : List I
deriving DecidableEq

/-- `SearchScratchParams` handling: `AsPooled::create` (search/scratch.rs:198–206). -/
def St.create (l frozen : Nat) : St I D :=
  { best := Queue.new (l + frozen), visited := [], cmps := 0, hops := 0, computed := [], expanded := [] }

/-- `clear` (search/scratch.rs:148–158). -/
def St.clear (s : St I D) : St I D :=
  { best := s.best.clear, visited := [], cmps := 0, hops := 0, computed := [], expanded := [] }

/-- `AsPooled::modify` (search/scratch.rs:208–216). -/
def St.modify (s : St I D) (l frozen : Nat) : St I D :=
  let s := s.clear
  if s.best.auto then { s with best := Queue.new (l + frozen) }
  else { s with best := s.best.reconfigure (l + frozen) }

/-- `expand_beam` with the predicate `NotInMut` (glue.rs:193–209, 524–549) over the concatenated
adjacency lists: returns the new visited set and the ids forwarded to `on_neighbors`. -/
def forward (visited : List I) : List I → List I × List I
  | [] => (visited, [])
  | j :: js =>
    if j ∈ visited then forward visited js
    else
      let r := forward (visited ++ [j]) js
      (r.1, j :: r.2)

def expandBeam (G : Graph I D) (visited beam : List I) : List I × List I :=
  forward visited (beam.flatMap G.adj)

/-- Filling the beam (index.rs:1966–1971). -/
def fillBeam (q : Queue I D) : Nat → Option (List I × Queue I D)
  | 0 => some ([], q)
  | n + 1 =>
    match q.pop with
    | none => none
    | some (none, q') => some ([], q')
    | some (some x, q') =>
      match fillBeam q' n with
      | none => none
      | some r => some (x.1 :: r.1, r.2)

/-- `neighbors.iter().for_each(|n| scratch.best.insert(*n))` (index.rs:1986–1988). -/
def insertAll (pad : D) (G : Graph I D) (q : Queue I D) (ids : List I) : Option (Queue I D) :=
  ids.foldlM (fun q i => q.insert pad i (G.dist i)) q

/-- One round of the loop of `search_internal` (index.rs:1962–1992). -/
def iterate (pad : D) (G : Graph I D) (beam : Nat) (s : St I D) : Option (St I D) :=
  match fillBeam s.best beam with
  | none => none
  | some (nodes, q) =>
    let r := expandBeam G s.visited nodes
    match insertAll pad G q r.2 with
    | none => none
    | some q' =>
      some { best := q', visited := r.1, cmps := s.cmps + r.2.length, hops := s.hops + nodes.length,
             computed := s.computed ++ r.2, expanded := s.expanded ++ nodes }

/-- The loop of `search_internal` (index.rs:1961–1993); `stop n` is the answer of
`accessor.terminate_early()` before round `n`. -/
def searchLoop (pad : D) (G : Graph I D) (beam : Nat) (stop : Nat → Bool) :
    Nat → Nat → St I D → Option (St I D)
  | 0, _, _ => none
  | fuel + 1, n, s =>
    if s.best.hasNotVisited && !stop n then
      match iterate pad G beam s with
      | none => none
      | some s' => searchLoop pad G beam stop fuel (n + 1) s'
    else some s

/-- The start-point callback of `search_internal` (index.rs:1952–1956). -/
def addStart (pad : D) (G : Graph I D) (s : St I D) (i : I) : Option (St I D) :=
  match s.best.insert pad i (G.dist i) with
  | none => none
  | some q =>
    some { s with best := q, visited := if i ∈ s.visited then s.visited else s.visited ++ [i],
                  cmps := s.cmps + 1, computed := s.computed ++ [i] }

/-- `search_internal` (index.rs:1933–2001). -/
def searchInternal (pad : D) (G : Graph I D) (starts : List I) (beam : Nat) (stop : Nat → Bool)
    (fuel : Nat) (s : St I D) : Option (St I D) :=
  if s.visited = [] then
    match starts.foldlM (addStart pad G) s with
    | none => none
    | some s => searchLoop pad G beam stop fuel 0 s
  else searchLoop pad G beam stop fuel 0 s

/-- The graph traversal of `Knn::search` (search/knn_search.rs:153–166) and of the first phase of
`Range::search`. -/
def knnTraverse (pad : D) (G : Graph I D) (starts : List I) (l beam : Nat) (stop : Nat → Bool)
    (fuel : Nat) : Option (St I D) :=
  searchInternal pad G starts beam stop fuel (St.create l starts.length)

/-! ## k-nearest-neighbour search -/

/-- `Pipeline<FilterStartPoints, CopyIds>` (glue.rs:672–693, 727–772): the default post-processing of
a k-nearest-neighbour search. -/
def postProcess (starts : List I) (cands : List (I × D)) (b : Buf I D) : Nat × Buf I D :=
  b.extend (cands.filter fun x => decide (x.1 ∉ starts))

/-- `Knn::search` (search/knn_search.rs:130–172): the final scratch, the result count, the buffer. -/
def knnSearch (pad : D) (G : Graph I D) (starts : List I) (l beam : Nat) (stop : Nat → Bool)
    (fuel : Nat) (b : Buf I D) : Option (St I D × Nat × Buf I D) :=
  match knnTraverse pad G starts l beam stop fuel with
  | none => none
  | some s => let r := postProcess starts s.best.iter b; some (s, r.1, r.2)

/-! ## Reachability count -/

/-- The loop of `count_reachable_nodes` (index.rs:2175–2183) over (queue, expanded set). -/
def countLoop (adj : I → List I) : Nat → List I → List I → Option (List I)
  | _, [], expanded => some expanded
  | 0, _ :: _, _ => none
  | fuel + 1, id :: queue, expanded =>
    if id ∈ expanded then countLoop adj fuel queue expanded
    else countLoop adj fuel (queue ++ adj id) (expanded ++ [id])

/-- `count_reachable_nodes` (index.rs:2161–2187). -/
def countReachable (adj : I → List I) (starts : List I) (fuel : Nat) : Option Nat :=
  (countLoop adj fuel starts []).map List.length

/-! ## Range search -/

/-- Validated parameters of a range search (range_search.rs:48–130). `radius` is the outer radius,
`outer` the `f32` product `radius * range_slack`, `need` the value of
`((starting_l as f32) * initial_slack) as usize`; a NaN in `radius` / `outer` is `none` (every
comparison with it is false). -/
structure RangeParams (D : Type) where
  maxReturned : Option Nat
  startingL : Nat
  beam : Nat
  radius : Option D
  inner : Option D
  outer : Option D
  need : Nat

/-- The integer checks of `validate_and_create` (range_search.rs:99–113). -/
def RangeParams.valid (p : RangeParams D) : Bool :=
  decide (1 ≤ p.beam) && decide (1 ≤ p.startingL) &&
    (match p.maxReturned with | some m => decide (p.startingL ≤ m) | none => true)

/-- `a <= b` on `f32`, `b` possibly NaN. -/
def leOpt (a : D) (b : Option D) : Bool := match b with | some b => decide (a ≤ b) | none => false

/-- `len < max_returned.unwrap_or(usize::MAX)`; the list length never reaches `usize::MAX`. -/
def below (n : Nat) (m : Option Nat) : Bool := match m with | some m => decide (n < m) | none => true

/-- The scratch state used by the second phase. -/
structure RangeSt (I D : Type) where
  inRange : List (I × D)
  frontier : List I
  visited : List I
  cmps : Nat
  hops : Nat
  computed : List I
  expanded : List I

/-- The neighbour loop of `range_search_internal` (range_search.rs:440–447); a NaN distance is never
`<=` the threshold. -/
def rangePush (p : RangeParams D) (G : Graph I D) (acc : List (I × D) × List I) (i : I) :
    List (I × D) × List I :=
  match G.dist i with
  | none => acc
  | some d =>
    if leOpt d p.outer && below acc.1.length p.maxReturned then (acc.1 ++ [(i, d)], acc.2 ++ [i])
    else acc

/-- One round of `range_search_internal` (range_search.rs:417–450). -/
def rangeRound (p : RangeParams D) (G : Graph I D) (s : RangeSt I D) : RangeSt I D :=
  let nodes := s.frontier.take p.beam
  let r := expandBeam G s.visited nodes
  let acc := r.2.foldl (rangePush p G) (s.inRange, s.frontier.drop p.beam)
  { inRange := acc.1, frontier := acc.2, visited := r.1, cmps := s.cmps + r.2.length,
    hops := s.hops + nodes.length, computed := s.computed ++ r.2, expanded := s.expanded ++ nodes }

/-- The loop of `range_search_internal` (range_search.rs:415–451). -/
def rangeLoop (p : RangeParams D) (G : Graph I D) : Nat → RangeSt I D → Option (RangeSt I D)
  | 0, _ => none
  | fuel + 1, s =>
    if decide (s.frontier ≠ []) && below s.inRange.length p.maxReturned then
      rangeLoop p G fuel (rangeRound p G s)
    else some s

structure Stats where
  cmps : Nat
  hops : Nat
  secondRound : Bool
deriving DecidableEq

/-- What a range search leaves behind: the in-range list, the reported statistics, and (logs) every
distance computation and vertex expansion performed. -/
structure RangeResult (I D : Type) where
  inRange : List (I × D)
  stats : Stats
  computed : List I
  expanded : List I

/-- First phase of `Range::search`: the in-range candidates (range_search.rs:288–292). -/
def firstInRange (p : RangeParams D) (s : St I D) : List (I × D) :=
  (s.best.iter.take p.startingL).filter fun x => leOpt x.2 p.radius

/-- `Range::search` up to post-processing (range_search.rs:267–329). -/
def rangeTraverse (pad : D) (G : Graph I D) (starts : List I) (p : RangeParams D) (stop : Nat → Bool)
    (fuel : Nat) : Option (RangeResult I D) :=
  match knnTraverse pad G starts p.startingL p.beam stop fuel with
  | none => none
  | some s =>
    let inRange := firstInRange p s
    if decide (p.need ≤ inRange.length) && below inRange.length p.maxReturned then
      match rangeLoop p G fuel
          { inRange := inRange, frontier := inRange.map (·.1), visited := inRange.map (·.1),
            cmps := s.cmps, hops := s.hops, computed := s.computed, expanded := s.expanded } with
      | none => none
      | some t =>
        -- range_search.rs:318–322: `cmps` of the first phase only; `hops` of both, added to `hops`
        some { inRange := t.inRange, stats := ⟨s.cmps, s.hops + t.hops, true⟩,
               computed := t.computed, expanded := t.expanded }
    else
      some { inRange := inRange, stats := ⟨s.cmps, s.hops, false⟩, computed := s.computed,
             expanded := s.expanded }

/-- The predicate of `DistanceFiltered` (range_search.rs:333–340). -/
def rangeKeep (p : RangeParams D) (d : D) : Bool :=
  if leOpt d p.inner then false else leOpt d p.radius

/-- `Range::search` (range_search.rs:253–362) with post-processing by a selection `post` of candidates
(`CopyIds`, or `FilterStartPoints` first) into the distance-filtered buffer; the list written. -/
def rangeOutput (p : RangeParams D) (post : I → Bool) (r : RangeResult I D) : List (I × D) :=
  (r.inRange.filter fun x => post x.1).filter fun x => rangeKeep p x.2

/-! ## Paged search -/

/-- `PagedSearch` (search/paged.rs:20–38). -/
structure Paged (I D : Type) where
  scratch : St I D
  computedResult : List (I × D)
  next : Nat
  l : Nat

/-- `paged_search_with_init_ids` (index.rs:2096–2155). The placeholder results
(`vec![default; l]` with the index at its end) are `l` copies of an arbitrary pair. -/
def Paged.start (pad : D) (G : Graph I D) (starts init : List I) (l : Nat) (dflt : I × D) :
    Option (Paged I D) :=
  let visited := init.foldl (fun v i => if i ∈ v then v else v ++ [i]) []
  let r := expandBeam G visited init
  match insertAll pad G (Queue.newAuto (l + starts.length)) r.2 with
  | none => none
  | some q =>
    some { scratch := { best := q, visited := r.1, cmps := 0, hops := 0, computed := r.2, expanded := init }
           computedResult := List.replicate l dflt, next := l, l := l }

/-- The loop of `filter_search_candidates` (search/paged.rs:123–149): candidates and number of
entries considered. The trailing `debug_assert!` is not modelled. -/
def filterCandidates (starts : List I) (pageSize : Nat) :
    List (I × D) → List (I × D) → Nat → List (I × D) × Nat
  | [], acc, total => (acc, total)
  | x :: xs, acc, total =>
    if x.1 ∈ starts then filterCandidates starts pageSize xs acc (total + 1)
    else
      let acc := acc ++ [x]
      if acc.length ≥ pageSize then (acc, total + 1)
      else filterCandidates starts pageSize xs acc (total + 1)

inductive PageResult (I D : Type) where
  | error
  | page (xs : List (I × D))
deriving DecidableEq

/-- `next_page` (search/paged.rs:53–119); outer `none` is a panic or exhausted fuel. -/
def Paged.nextPage (pad : D) (G : Graph I D) (starts : List I) (stop : Nat → Bool) (fuel k : Nat)
    (p : Paged I D) : Option (PageResult I D × Paged I D) :=
  if k > p.l then some (.error, p)
  else if k = 0 then some (.error, p)
  else
    let available := p.computedResult.length - p.next
    let fromCache := min k available
    let result := if fromCache > 0 then (p.computedResult.drop p.next).take fromCache else []
    let p := if fromCache > 0 then { p with next := p.next + fromCache } else p
    if fromCache > 0 ∧ result.length = k then some (.page result, p)
    else
      match searchInternal pad G starts 1 stop fuel p.scratch with
      | none => none
      | some s =>
        let c := filterCandidates starts k s.best.iter [] 0
        let s := { s with best := s.best.drainBest c.2 }
        if result.length > k then none -- `k - result.len()` underflows
        else
          let leftover := min (k - result.length) c.1.length
          some (.page (result ++ c.1.take leftover),
            { p with scratch := s, computedResult := c.1, next := leftover })

end Verif.Search
