import Verif.Graph.AdjModel
import Mathlib.Data.Rat.Lemmas
import Mathlib.Algebra.Order.Ring.Rat
import Mathlib.Algebra.Order.Monoid.Unbundled.WithTop

/-!
# Model of `diskann/src/graph/internal/prune.rs` (`robust_prune`),
# `diskann/src/graph/internal/sorted_neighbors.rs`, `diskann/src/graph/config/mod.rs`
# (`PruneKind::update_occlude_factor`) and `diskann/src/graph/index.rs` (`occlude_list`)

Simplifications: `f32` distances and `alpha` are exact rationals (no rounding or infinities; NaN only
for `alpha`, as `none`); `f32::MAX`, which the code uses as "never again", is a top element `⊤`.
-/

namespace Verif.Graph

/-- An occlude factor: a rational or the `f32::MAX` marker. -/
abbrev Factor := WithTop Rat

/-- `enum PruneKind` (config/mod.rs:30–62). -/
inductive PruneKind where
  | triangleInequality
  | occluding
deriving DecidableEq

/-- `PruneKind::update_occlude_factor` (config/mod.rs:80–103); `OCCLUDING_MASK` is 0.01. -/
def PruneKind.update (k : PruneKind) (dik djk : Rat) (current : Factor) (alpha : Rat) : Factor :=
  match k with
  | .triangleInequality => if djk = 0 then ⊤ else max current ((dik / djk : Rat) : Factor)
  | .occluding => if djk < alpha * dik then ((alpha + 1 / 100 : Rat) : Factor) else current

/-- The inputs of `prune::robust_prune` (prune.rs:106–113), by candidate position: `n` candidates
sorted by source distance `dik`, whether the candidate's vector is available (`Some`), the distance
between two candidates, and the parameters. `update` is `prune_kind.update_occlude_factor`. -/
structure Problem where
  n : Nat
  dik : Nat → Rat
  usable : Nat → Bool
  dist : Nat → Nat → Rat
  degree : Nat
  alpha : Option Rat
  update : Rat → Rat → Factor → Rat → Factor

/-- The `states` scratch (prune.rs:89–96): per-candidate occlude factor and number of chosen
neighbours already checked; `states[..found].neighbor` is `chosen`. -/
structure State where
  factor : Nat → Factor
  lastChecked : Nat → Nat
  chosen : List Nat

/-- `State::default()` everywhere (index.rs:2596–2597). -/
def State.init : State := { factor := fun _ => 0, lastChecked := fun _ => 0, chosen := [] }

/-- The inner `while last_checked != found` loop (prune.rs:197–230) for candidate `i`, run over the
chosen neighbours from `last_checked` on; returns the occlude factor and `last_checked`. (A chosen
neighbour's vector is always available, so the `(_, None)` arm at 214 is not modelled.) -/
def checkAgainst (P : Problem) (i : Nat) (alpha : Rat) : List Nat → Factor → Nat → Factor × Nat
  | [], f, last => (f, last)
  | rp :: rest, f, last =>
    if rp ≥ i then checkAgainst P i alpha rest f (last + 1)
    else
      let f := P.update (P.dik i) (P.dist i rp) f alpha
      if (alpha : Factor) < f then (f, last + 1)
      else checkAgainst P i alpha rest f (last + 1)

/-- Body of the `for (i, ..)` loop (prune.rs:162–248). Once `found >= degree` (the `break` at
163–165) nothing changes any more. -/
def visit (P : Problem) (alpha : Rat) (s : State) (i : Nat) : State :=
  if s.chosen.length ≥ P.degree then s
  else if (alpha : Factor) < s.factor i then s
  else if P.usable i = false then { s with factor := Function.update s.factor i ⊤ }
  else
    let r := checkAgainst P i alpha (s.chosen.drop (s.lastChecked i)) (s.factor i) (s.lastChecked i)
    if (alpha : Factor) < r.1 then
      { s with factor := Function.update s.factor i r.1
               lastChecked := Function.update s.lastChecked i r.2 }
    else
      { factor := Function.update s.factor i ⊤
        lastChecked := Function.update s.lastChecked i r.2
        chosen := s.chosen ++ [i] }

/-- One pass over the candidates (prune.rs:162–248). -/
def round (P : Problem) (alpha : Rat) (s : State) : State :=
  (List.range P.n).foldl (visit P alpha) s

/-- `f32::min`, which returns the other operand when one is NaN (`none`). -/
def fmin (x : Rat) (alpha : Option Rat) : Rat :=
  match alpha with
  | some a => min x a
  | none => x

/-- `increment_factor` (prune.rs:123). -/
def increment (alpha : Option Rat) : Rat := fmin (6 / 5) alpha

/-- The outer `while found < degree` loop (prune.rs:161–256) with a step budget; `none` means the
budget ran out. -/
def rounds (P : Problem) : Nat → Rat → State → Option State
  | 0, _, _ => none
  | fuel + 1, current, s =>
    if s.chosen.length < P.degree then
      let s := round P current s
      if some current = P.alpha then some s
      else rounds P fuel (fmin (current * increment P.alpha) P.alpha) s
    else some s

/-- `robust_prune` (prune.rs:106–259): the chosen candidate positions, in order of choice. -/
def robustPrune (P : Problem) (fuel : Nat) : Option (List Nat) :=
  (rounds P fuel 1 State.init).map (·.chosen)

variable {I : Type} [DecidableEq I]

/-- Configuration used by pruning (graph/config/mod.rs; `alpha` is not validated at 262): `pruned_degree`, `alpha`, `prune_kind`,
`saturate_after_prune`, `max_occlusion_size`. -/
structure Config where
  prunedDegree : Nat
  maxDegree : Nat
  maxOcclusion : Nat
  alpha : Option Rat
  kind : PruneKind
  saturate : Bool

/-- The candidate positions and vectors handed to `robust_prune` by `occlude_list`
(index.rs:2593–2625): `vec id` says the vector of `id` is in the working set, `excl` is the
`exclude` closure, `dd` the distance function. -/
def toProblem (c : Config) (pool : List (I × Rat)) (vec : I → Bool) (excl : I → Bool)
    (dd : I → I → Rat) : Problem where
  n := pool.length
  dik := fun i => match pool[i]? with | some x => x.2 | none => 0
  usable := fun i => match pool[i]? with | some x => !excl x.1 && vec x.1 | none => false
  dist := fun i j => match pool[i]?, pool[j]? with | some x, some y => dd x.1 y.1 | _, _ => 0
  degree := c.prunedDegree
  alpha := c.alpha
  update := c.kind.update

/-- The saturation loop (index.rs:2638–2648). -/
def saturateLoop (degree : Nat) (excl : I → Bool) (pool : List (I × Rat)) (l : List I) : List I :=
  match pool with
  | [] => l
  | x :: rest =>
    if l.length ≥ degree then l
    else saturateLoop degree excl rest (if excl x.1 then l else (push l x.1).1)

/-- `occlude_list` (index.rs:2565–2650) on an already sorted and truncated pool. -/
def occludeList (c : Config) (pool : List (I × Rat)) (vec : I → Bool) (excl : I → Bool)
    (dd : I → I → Rat) (forceSaturate : Bool) (fuel : Nat) : Option (List I) :=
  if pool = [] then some []
  else
    (robustPrune (toProblem c pool vec excl dd) fuel).map fun chosen =>
      let neighbors := chosen.filterMap fun i => (pool[i]?).map (·.1)
      if forceSaturate || (c.saturate && (c.alpha.any fun a => decide (1 < a))) then
        saturateLoop c.prunedDegree excl pool neighbors
      else neighbors

/-- What `SortedNeighbors::new(pool, max)` (sorted_neighbors.rs:26–44) may return: `select_nth` and
`sort_unstable` leave the order of ties open, so this is a relation. -/
structure SortedPrefix (pool : List (I × Rat)) (max : Nat) (out : List (I × Rat)) : Prop where
  length_eq : out.length = min max pool.length
  sorted : out.Pairwise (fun a b => a.2 ≤ b.2)
  rest : ∃ rest, (out ++ rest).Perm pool ∧ ∀ a ∈ out, ∀ b ∈ rest, a.2 ≤ b.2

/-- A resolution of the ties left open by `SortedNeighbors::new`. -/
structure Sorter (I : Type) where
  run : List (I × Rat) → Nat → List (I × Rat)
  ok : ∀ pool max, SortedPrefix pool max (run pool max)

end Verif.Graph
