import Verif.Search.Model
import Mathlib.Algebra.Order.Ring.Rat
import Mathlib.Data.Rat.Floor

/-!
# Model of the filtered searches

`diskann/src/graph/search/{inline_filter_search,multihop_filter_search,filtered_range_search}.rs`,
`diskann/src/graph/ext/labeled.rs` (`decide`, `FilteredAccessor`, `EvalFiltered`).

Simplifications beyond those of `Search/Model.lean`. The label provider is a pure predicate `ok`
(`true` = `Decision::Accept`). `sort_unstable_by` with a comparison that is not a total order (a NaN
distance is present) may return any permutation or panic; it is the parameter `srt` constrained by
`IsSort`. `f64` arithmetic in `compute_adaptive_l` is exact rational arithmetic, with NaN and the
infinities kept; `2^(-log10 x)` is an arbitrary function.
-/

namespace Verif.Search

open Verif.Queue

variable {I D : Type} [DecidableEq I] [LinearOrder D]

/-! ## Adaptive list size -/

/-- An `f64`. -/
inductive F64 where
  | nan
  | negInf
  | posInf
  | fin (q : Rat)
deriving DecidableEq

/-- `self < 1.0` on `f64`. -/
def F64.ltOne : F64 → Bool
  | .nan => false
  | .negInf => true
  | .posInf => false
  | .fin q => decide (q < 1)

/-- `AdaptiveL` (inline_filter_search.rs:38–41). -/
structure AdaptiveL where
  sampleCount : Nat
  scale : F64
deriving DecidableEq

/-- `AdaptiveL::new` (inline_filter_search.rs:45–56); `none` is an error. -/
def AdaptiveL.new (sampleCount : Nat) (scale : F64) : Option AdaptiveL :=
  if scale.ltOne then none
  else if sampleCount = 0 then none
  else some ⟨sampleCount, scale⟩

/-- `usize::MAX`. -/
def usizeMax : Nat := 2 ^ 64 - 1

/-- `(base as f64 * x) as usize` (inline_filter_search.rs:297, 315): a saturating cast, NaN to 0.
`0 * inf` (NaN) does not arise: the list size is nonzero. -/
def mulCast (base : Nat) : F64 → Nat
  | .nan => 0
  | .negInf => 0
  | .posInf => usizeMax
  | .fin q => min (base * q).floor.toNat usizeMax

/-- `m.clamp(1.0, max)` (inline_filter_search.rs:314); `none` is the panic of `f64::clamp` when `max` is
NaN or below 1. -/
def clampOne (m : Rat) : F64 → Option F64
  | .nan => none
  | .negInf => none
  | .posInf => some (.fin (max m 1))
  | .fin q => if q < 1 then none else some (.fin (min (max m 1) q))

/-- `compute_adaptive_l` (inline_filter_search.rs:294–316). `logScale visited matched` is the value of
`2^(-log10 (matched / visited))`. -/
def computeAdaptiveL (logScale : Nat → Nat → Rat) (base visited matched : Nat) (scale : F64) : Option Nat :=
  if matched = 0 ∨ visited = 0 then some (mulCast base scale)
  else
    let spec : Rat := matched / visited
    let m := if 1 / 2 ≤ spec then 1 else if 1 / 10 ≤ spec then 2 else logScale visited matched
    (clampOne m scale).map (mulCast base)

/-- The fixed parameters of an inline filtered search. `lim` is the largest number of entries for which
`Vec::reserve` does not panic. -/
structure InlineParams where
  l : Nat
  beam : Nat
  adaptive : Option AdaptiveL
  logScale : Nat → Nat → Rat
  lim : Nat

/-- Local variables of `inline_filter_search_internal` (inline_filter_search.rs:184–204). -/
structure InlineSt (I D : Type) where
  scratch : St I D
  matched : List (I × Option D)
  sampleVisited : Nat
  sampleMatched : Nat
  adjusted : Bool

/-- The start-point callback (inline_filter_search.rs:187–196). `cmps` is not incremented. -/
def inlineStart (pad : D) (G : Graph I D) (ok : I → Bool) (s : InlineSt I D) (i : I) :
    Option (InlineSt I D) :=
  match s.scratch.best.insert pad i (G.dist i) with
  | none => none
  | some q =>
    some { s with
      scratch := { s.scratch with
        best := q
        visited := if i ∈ s.scratch.visited then s.scratch.visited else s.scratch.visited ++ [i]
        computed := s.scratch.computed ++ [i] }
      matched := if ok i then s.matched ++ [(i, G.dist i)] else s.matched }

/-- The loop over `one_hop_neighbors` (inline_filter_search.rs:239–251), for one neighbour. -/
def inlineNeighbor (pad : D) (G : Graph I D) (ok : I → Bool)
    (s : Queue I D × List (I × Option D) × Nat × Nat) (i : I) :
    Option (Queue I D × List (I × Option D) × Nat × Nat) :=
  let m := if ok i then s.2.1 ++ [(i, G.dist i)] else s.2.1
  let sm := if ok i then s.2.2.2 + 1 else s.2.2.2
  match s.1.insert pad i (G.dist i) with
  | none => none
  | some q => some (q, m, s.2.2.1 + 1, sm)

/-- The adaptive step (inline_filter_search.rs:257–271). -/
def adaptStep (p : InlineParams) (s : InlineSt I D) : Option (InlineSt I D) :=
  match p.adaptive with
  | none => some s
  | some a =>
    if !s.adjusted && decide (a.sampleCount ≤ s.sampleVisited) then
      match computeAdaptiveL p.logScale p.l s.sampleVisited s.sampleMatched a.scale with
      | none => none
      | some newL =>
        if p.l < newL then
          -- `reserve` inside `reconfigure` (queue.rs:346–350)
          if s.scratch.best.capacity < newL ∧ p.lim < newL then none
          else some { s with adjusted := true,
                             scratch := { s.scratch with best := s.scratch.best.reconfigure newL } }
        else some { s with adjusted := true }
    else some s

/-- One round of the loop, after a nonempty beam was taken (inline_filter_search.rs:229–271). -/
def inlineRound (pad : D) (G : Graph I D) (ok : I → Bool) (p : InlineParams) (s : InlineSt I D)
    (nodes : List I) (q : Queue I D) : Option (InlineSt I D) :=
  let r := expandBeam G s.scratch.visited nodes
  match r.2.foldlM (inlineNeighbor pad G ok) (q, s.matched, s.sampleVisited, s.sampleMatched) with
  | none => none
  | some (q', m, sv, sm) =>
    adaptStep p
      { scratch := { best := q', visited := r.1, cmps := s.scratch.cmps + r.2.length,
                     hops := s.scratch.hops + nodes.length, computed := s.scratch.computed ++ r.2,
                     expanded := s.scratch.expanded ++ nodes }
        matched := m, sampleVisited := sv, sampleMatched := sm, adjusted := s.adjusted }

/-- The loop of `inline_filter_search_internal` (inline_filter_search.rs:206–272). -/
def inlineLoop (pad : D) (G : Graph I D) (ok : I → Bool) (p : InlineParams) (stop : Nat → Bool) :
    Nat → Nat → InlineSt I D → Option (InlineSt I D)
  | 0, _, _ => none
  | fuel + 1, n, s =>
    if stop n then some s
    else
      match fillBeam s.scratch.best p.beam with
      | none => none
      | some (nodes, q) =>
        if nodes = [] then some { s with scratch := { s.scratch with best := q } }
        else
          match inlineRound pad G ok p s nodes q with
          | none => none
          | some s' => inlineLoop pad G ok p stop fuel (n + 1) s'

/-- `inline_filter_search_internal` (inline_filter_search.rs:166–272) up to the final sort, from a
scratch space of `AsPooled::create`. -/
def inlineTraverse (pad : D) (G : Graph I D) (ok : I → Bool) (starts : List I) (p : InlineParams)
    (stop : Nat → Bool) (fuel : Nat) : Option (InlineSt I D) :=
  match starts.foldlM (inlineStart pad G ok)
      { scratch := St.create p.l starts.length, matched := [], sampleVisited := 0, sampleMatched := 0,
        adjusted := false } with
  | none => none
  | some s => inlineLoop pad G ok p stop fuel 0 s

/-- `sort_unstable_by(fast_distance)` (inline_filter_search.rs:274) as a function: a sorted permutation
when no distance is NaN, otherwise any permutation or a panic (`none`). -/
structure IsSort (srt : List (I × Option D) → Option (List (I × Option D))) : Prop where
  perm : ∀ l l', srt l = some l' → l'.Perm l
  sorted : ∀ l : List (I × Option D), (∀ x ∈ l, x.2 ≠ none) → ∃ l', srt l = some l' ∧
    l'.Pairwise fun a b => ∀ d e, a.2 = some d → b.2 = some e → d ≤ e

/-- `InlineFilterSearch::search` up to the post-processor (inline_filter_search.rs:97–142): the list
handed to it. -/
def inlineSearch (pad : D) (G : Graph I D) (ok : I → Bool) (starts : List I) (p : InlineParams)
    (stop : Nat → Bool) (srt : List (I × Option D) → Option (List (I × Option D))) (fuel : Nat) :
    Option (InlineSt I D × List (I × Option D)) :=
  match inlineTraverse pad G ok starts p stop fuel with
  | none => none
  | some s =>
    match srt s.matched with
    | none => none
    | some l => some (s, l.take p.l)

/-! ## Multi-hop search -/

/-- Scratch space and the set of rejected start points (multihop_filter_search.rs:114–118, 143). The logs
`fed` and `hopped` list what was inserted in the queue and the rejected vertices that were expanded. -/
structure HopSt (I D : Type) where
  scratch : St I D
  rejected : List I
  fed : List I
  hopped : List I

/-- The start-point callback (multihop_filter_search.rs:146–155). `cmps` is not incremented. -/
def hopStart (pad : D) (G : Graph I D) (ok : I → Bool) (s : HopSt I D) (i : I) : Option (HopSt I D) :=
  match s.scratch.best.insert pad i (G.dist i) with
  | none => none
  | some q =>
    some { scratch := { s.scratch with
             best := q
             visited := if i ∈ s.scratch.visited then s.scratch.visited else s.scratch.visited ++ [i]
             computed := s.scratch.computed ++ [i] }
           rejected := if ok i then s.rejected else s.rejected ++ [i]
           fed := s.fed ++ [i]
           hopped := s.hopped }

/-- `EvalFiltered::eval_mut` (ext/labeled.rs:285–289) used as the predicate of `expand_beam`: an id is
forwarded, and marked visited, only if it matches and was not visited. -/
def forwardAccept (ok : I → Bool) (visited : List I) : List I → List I × List I
  | [] => (visited, [])
  | j :: js =>
    if ok j && decide (j ∉ visited) then
      let r := forwardAccept ok (visited ++ [j]) js
      (r.1, j :: r.2)
    else forwardAccept ok visited js

/-- The comparison of `sort_unstable_by(fast_distance)` on ids. -/
def distLe (G : Graph I D) (a b : I) : Prop :=
  ∀ d e, G.dist a = some d → G.dist b = some e → d ≤ e

/-- One round (multihop_filter_search.rs:164–237). `order` is the result of sorting the rejected
one-hop neighbours by distance (multihop_filter_search.rs:205–206), `none` if the sort panics. -/
def hopRound (pad : D) (G : Graph I D) (ok : I → Bool) (beam half : Nat)
    (order : List I → Option (List I)) (s : HopSt I D) : Option (HopSt I D) :=
  match fillBeam s.scratch.best beam with
  | none => none
  | some (nodes, q) =>
    let r := expandBeam G s.scratch.visited nodes
    match insertAll pad G q (r.2.filter ok) with
    | none => none
    | some q1 =>
      match order (r.2.filter fun i => !ok i) with
      | none => none
      | some cands =>
        let cands := cands.take half
        let r2 := forwardAccept ok r.1 (cands.flatMap G.adj)
        match insertAll pad G q1 r2.2 with
        | none => none
        | some q2 =>
          some { scratch := { best := q2, visited := r2.1,
                              cmps := s.scratch.cmps + r.2.length + r2.2.length,
                              hops := s.scratch.hops + nodes.length + cands.length,
                              computed := s.scratch.computed ++ r.2 ++ r2.2,
                              expanded := s.scratch.expanded ++ nodes }
                 rejected := s.rejected
                 fed := s.fed ++ r.2.filter ok ++ r2.2
                 hopped := s.hopped ++ cands }

/-- The loop (multihop_filter_search.rs:163–238). -/
def hopLoop (pad : D) (G : Graph I D) (ok : I → Bool) (beam half : Nat)
    (order : List I → Option (List I)) (stop : Nat → Bool) : Nat → Nat → HopSt I D → Option (HopSt I D)
  | 0, _, _ => none
  | fuel + 1, n, s =>
    if s.scratch.best.hasNotVisited && !stop n then
      match hopRound pad G ok beam half order s with
      | none => none
      | some s' => hopLoop pad G ok beam half order stop fuel (n + 1) s'
    else some s

/-- `multihop_search_internal` (multihop_filter_search.rs:124–245); `half` is
`max_degree_with_slack / 2`. -/
def hopTraverse (pad : D) (G : Graph I D) (ok : I → Bool) (starts : List I) (l beam half : Nat)
    (order : List I → Option (List I)) (stop : Nat → Bool) (fuel : Nat) : Option (HopSt I D) :=
  match starts.foldlM (hopStart pad G ok)
      { scratch := St.create l starts.length, rejected := [], fed := [], hopped := [] } with
  | none => none
  | some s => hopLoop pad G ok beam half order stop fuel 0 s

/-- The candidates handed to the post-processor (multihop_filter_search.rs:91–95). -/
def hopOutput (l : Nat) (s : HopSt I D) : List (I × D) :=
  (s.scratch.best.iter.filter fun x => decide (x.1 ∉ s.rejected)).take l

/-! ## Filtered range search -/

/-- `dedup_by(|l, r| l.id() == r.id())` (filtered_range_search.rs:163). -/
def dedupAdj : List (I × D) → List (I × D)
  | [] => []
  | [x] => [x]
  | x :: y :: l => if x.1 = y.1 then dedupAdj (x :: l) else x :: dedupAdj (y :: l)
termination_by l => l.length

/-- Comparison of `fast_distance_total` (neighbor/mod.rs:177–182). -/
def totalLe [LinearOrder I] (a b : I × D) : Prop := a.2 < b.2 ∨ (a.2 = b.2 ∧ a.1 ≤ b.1)

instance [LinearOrder I] : DecidableRel (totalLe (I := I) (D := D)) := fun a b => by
  unfold totalLe; infer_instance

/-- The state of `filtered_range_search_internal`. -/
structure FRangeSt (I D : Type) where
  matched : List (I × D)
  frontier : List I
  visited : List I
  cmps : Nat
  hops : Nat
  computed : List I
  expanded : List I

/-- The neighbour loop (filtered_range_search.rs:305–318). -/
def frangePush (p : RangeParams D) (G : Graph I D) (ok : I → Bool) (acc : List (I × D) × List I) (i : I) :
    List (I × D) × List I :=
  match G.dist i with
  | none => acc
  | some d =>
    if leOpt d p.outer then
      (if leOpt d p.radius && ok i && below acc.1.length p.maxReturned then acc.1 ++ [(i, d)] else acc.1,
       acc.2 ++ [i])
    else acc

/-- One round of `filtered_range_search_internal` (filtered_range_search.rs:276–321). -/
def frangeRound (p : RangeParams D) (G : Graph I D) (ok : I → Bool) (s : FRangeSt I D) : FRangeSt I D :=
  let nodes := s.frontier.take p.beam
  let r := expandBeam G s.visited nodes
  let acc := r.2.foldl (frangePush p G ok) (s.matched, s.frontier.drop p.beam)
  { matched := acc.1, frontier := acc.2, visited := r.1, cmps := s.cmps + r.2.length,
    hops := s.hops + nodes.length, computed := s.computed ++ r.2, expanded := s.expanded ++ nodes }

/-- The loop (filtered_range_search.rs:275–322). -/
def frangeLoop (p : RangeParams D) (G : Graph I D) (ok : I → Bool) :
    Nat → FRangeSt I D → Option (FRangeSt I D)
  | 0, _ => none
  | fuel + 1, s =>
    if decide (s.frontier ≠ []) && below s.matched.length p.maxReturned then
      frangeLoop p G ok fuel (frangeRound p G ok s)
    else some s

/-- Entries of the sorted match list within the radius (filtered_range_search.rs:166–171). -/
def matchedWithin (p : RangeParams D) (m : List (I × Option D)) : List (I × D) :=
  m.filterMap fun x => match x.2 with
    | some d => if leOpt d p.radius then some (x.1, d) else none
    | none => none

/-- The merged in-range list of the first phase (filtered_range_search.rs:153–163). -/
def frangeFirst [LinearOrder I] (p : RangeParams D) (best : List (I × D)) (m : List (I × Option D)) :
    List (I × D) :=
  dedupAdj (((best.take p.startingL).filter (fun x => leOpt x.2 p.radius) ++ matchedWithin p m).insertionSort
    totalLe)

/-- What a filtered range search leaves behind. -/
structure FRangeResult (I D : Type) where
  matched : List (I × D)
  stats : Stats
  computed : List I
  expanded : List I

/-- `FilteredRange::search` up to post-processing (filtered_range_search.rs:129–212). -/
def frangeTraverse [LinearOrder I] (pad : D) (G : Graph I D) (ok : I → Bool) (starts : List I)
    (p : RangeParams D) (stop : Nat → Bool)
    (srt : List (I × Option D) → Option (List (I × Option D))) (fuel : Nat) :
    Option (FRangeResult I D) :=
  match inlineTraverse pad G ok starts ⟨p.startingL, p.beam, none, fun _ _ => 1, 0⟩ stop fuel with
  | none => none
  | some t =>
    match srt t.matched with
    | none => none
    | some m =>
      let s := t.scratch
      let inRange := frangeFirst p s.best.iter m
      let mw := matchedWithin p m
      if decide (p.need ≤ inRange.length) && below mw.length p.maxReturned then
        match frangeLoop p G ok fuel
            { matched := mw, frontier := inRange.map (·.1), visited := inRange.map (·.1),
              cmps := s.cmps, hops := s.hops, computed := s.computed, expanded := s.expanded } with
        | none => none
        | some t => some { matched := t.matched, stats := ⟨t.cmps, t.hops, true⟩, computed := t.computed,
                           expanded := t.expanded }
      else
        some { matched := mw, stats := ⟨s.cmps, s.hops, false⟩, computed := s.computed, expanded := s.expanded }

/-- Truncation, post-processing by a selection and the distance filter of the output
(filtered_range_search.rs:215–236): the list written. -/
def frangeOutput (p : RangeParams D) (post : I → Bool) (r : FRangeResult I D) : List (I × D) :=
  let cands := match p.maxReturned with | some m => r.matched.take m | none => r.matched
  (cands.filter fun x => post x.1).filter fun x => !leOpt x.2 p.inner

end Verif.Search
