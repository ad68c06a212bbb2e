import Verif.Config.Float
import Verif.Graph.BatchModel

/-!
# Model of the configuration of a graph index and of insertions with retries

`Builder`, `Config::try_from_builder` (diskann/src/graph/config/mod.rs), `InsertRetry`
(diskann/src/graph/config/experimental.rs) and the loop of `insert` that uses it (diskann/src/graph/index.rs).

`f32` values are rationals, or `none` if not finite; products are rounded (`F32.rnd`). Error texts are left out, errors
keep the numbers they report.
-/

namespace Verif.Config

open Verif.Graph

/-- An `f32`: `none` is NaN or an infinity. -/
abbrev F := Option Rat

/-- `InsertRetry` (experimental.rs:26–37); both numbers are not zero. -/
structure Retry where
  maxRetries : Nat
  threshold : Nat
  saturateLast : Bool
deriving DecidableEq

/-- `InsertRetry::should_saturate` (experimental.rs:63–66). -/
def Retry.shouldSaturate (r : Retry) (attempt : Nat) : Bool := r.saturateLast && attempt == r.maxRetries - 1

/-- `InsertRetry::should_retry` (experimental.rs:68–72). -/
def Retry.shouldRetry (r : Retry) (attempt candidates : Nat) : Bool :=
  attempt != r.maxRetries - 1 && decide (candidates < r.threshold)

/-- `MaxDegree` (config/mod.rs:517–529). -/
inductive MaxDegree where
  | value (n : Nat)
  | slack (s : F)
  | same
deriving DecidableEq

/-- `BackedgeSpec` (config/mod.rs:564–567). -/
inductive Backedges where
  | ratio (r : F)
  | amount (n : Nat)
deriving DecidableEq

/-- `Builder` (config/mod.rs:570–586). -/
structure Builder where
  prunedDegree : Nat
  maxDegree : MaxDegree
  lBuild : Nat
  kind : PruneKind
  alpha : Option F
  maxOcclusion : Option Nat
  backedges : Option Backedges
  minibatch : Option Nat
  intra : Option IntraBatch
  saturate : Option Bool
  retry : Option Retry
deriving DecidableEq

/-- `Builder::new` (config/mod.rs:608–627). -/
def Builder.new (prunedDegree : Nat) (maxDegree : MaxDegree) (lBuild : Nat) (kind : PruneKind) : Builder :=
  ⟨prunedDegree, maxDegree, lBuild, kind, none, none, none, none, none, none, none⟩

/-- A call of one of the setters (config/mod.rs:650–723). -/
inductive Setting where
  | alpha (a : F)
  | lBuild (n : Nat)
  | maxOcclusion (n : Nat)
  | backedgeRatio (r : F)
  | maxBackedges (n : Nat)
  | minibatch (n : Nat)
  | intra (i : IntraBatch)
  | saturate (b : Bool)
  | retry (r : Retry)
deriving DecidableEq

/-- The setters (config/mod.rs:650–723). -/
def Builder.set (b : Builder) : Setting → Builder
  | .alpha a => { b with alpha := some a }
  | .lBuild n => { b with lBuild := n }
  | .maxOcclusion n => { b with maxOcclusion := some n }
  | .backedgeRatio r => { b with backedges := some (.ratio r) }
  | .maxBackedges n => { b with backedges := some (.amount n) }
  | .minibatch n => { b with minibatch := some n }
  | .intra i => { b with intra := some i }
  | .saturate s => { b with saturate := some s }
  | .retry r => { b with retry := some r }

/-- `Config` (config/mod.rs:179–218). -/
structure Cfg where
  prunedDegree : Nat
  maxDegree : Nat
  lBuild : Nat
  alpha : F
  kind : PruneKind
  maxOcclusion : Nat
  maxBackedges : Nat
  minibatch : Nat
  intra : IntraBatch
  saturate : Bool
  retry : Option Retry
deriving DecidableEq

/-- The parameters an error names. -/
inductive Param where
  | prunedDegree | maxDegree | slackDegree | lBuild | maxOcclusion | ratioBackedges | maxBackedges | minibatch
deriving DecidableEq

/-- `ConfigErrorInner` (config/mod.rs:437–449). -/
inductive Err where
  | parameter (p : Param) (value : Nat)
  | slack (s : F)
  | degrees (max pruned : Nat)
  | backedges (max pruned : Nat)
  | ratio (r : F)
deriving DecidableEq

/-- `non_zero_error` with `NonZeroU32` and `NonZeroU16` (config/mod.rs:235–261); `limit` is `2 ^ 32` or `2 ^ 16`. -/
def nonZero (p : Param) (limit value : Nat) : Except Err Nat :=
  if 0 < value ∧ value < limit then .ok value else .error (.parameter p value)

/-- The cast of an `f32` that is not negative to `usize`: cut off and saturating. -/
def toUsize (x : Rat) : Nat := min ⌊x⌋.toNat (2 ^ 64 - 1)

/-- `slack * pruned_degree.get() as f32` and the same for the ratio (config/mod.rs:282, 307): the degree is rounded to
`f32` and so is the product. -/
def scaled (s : Rat) (pruned : Nat) : Rat := F32.rnd (s * F32.rnd pruned)

/-- The maximum degree (config/mod.rs:273–286). -/
def resolveMax (pruned : Nat) : MaxDegree → Except Err Nat
  | .value n => nonZero .maxDegree (2 ^ 32) n
  | .slack none => .error (.slack none)
  | .slack (some s) =>
    if s < 1 then .error (.slack (some s)) else nonZero .slackDegree (2 ^ 32) (toUsize (scaled s pruned))
  | .same => .ok pruned

/-- The number of back-edges (config/mod.rs:299–313). -/
def resolveBack (pruned : Nat) : Option Backedges → Except Err Nat
  | some (.ratio none) => .error (.ratio none)
  | some (.ratio (some r)) =>
    if r ≤ 0 ∨ 1 < r then .error (.ratio (some r))
    else nonZero .ratioBackedges (2 ^ 32) (toUsize ⌈scaled r pruned⌉)
  | some (.amount n) => nonZero .maxBackedges (2 ^ 32) n
  | none => .ok pruned

/-- A parameter with a default (config/mod.rs:294–297, 321–324). -/
def resolveOr (p : Param) (limit dflt : Nat) : Option Nat → Except Err Nat
  | some n => nonZero p limit n
  | none => .ok dflt

/-- `defaults::ALPHA`, 1.2 as `f32` (defaults.rs:31). -/
def defaultAlpha : Rat := 10066330 / 8388608

/-- `defaults::GRAPH_SLACK_FACTOR`, 1.3 as `f32` (defaults.rs:27). -/
def defaultSlack : Rat := 10905190 / 8388608

/-- `Config::try_from_builder` (config/mod.rs:267–350), in the order of its checks. -/
def Builder.build (b : Builder) : Except Err Cfg := do
  let pruned ← nonZero .prunedDegree (2 ^ 32) b.prunedDegree
  let max ← resolveMax pruned b.maxDegree
  if max < pruned then throw (.degrees max pruned)
  let lBuild ← nonZero .lBuild (2 ^ 32) b.lBuild
  let occlusion ← resolveOr .maxOcclusion (2 ^ 16) 750 b.maxOcclusion
  let back ← resolveBack pruned b.backedges
  if pruned < back then throw (.backedges back pruned)
  let par ← resolveOr .minibatch (2 ^ 32) 1 b.minibatch
  return {
    prunedDegree := pruned, maxDegree := max, lBuild := lBuild, alpha := b.alpha.getD (some defaultAlpha), kind := b.kind
    maxOcclusion := occlusion, maxBackedges := back, minibatch := par, intra := b.intra.getD .all
    saturate := b.saturate.getD false, retry := b.retry }

/-- The configuration as the prunes see it. -/
def Cfg.graph (c : Cfg) : Graph.Config :=
  { prunedDegree := c.prunedDegree, maxDegree := c.maxDegree, maxOcclusion := c.maxOcclusion, alpha := c.alpha
    kind := c.kind, saturate := c.saturate }

/-! ## Insertion with retries -/

variable {I : Type} [DecidableEq I]

/-- `num_insert_attempts` (index.rs:267). -/
def attempts : Option Retry → Nat
  | some r => r.maxRetries
  | none => 1

/-- The attempts of `insert` (index.rs:272–309). `search k l` is the search record of attempt `k` with the window `l`;
`buffer` is `new_neighbors`, which an empty record leaves as it is (index.rs:2361–2363). Returns the attempts made, with
their window and whether saturation was forced, and the new neighbours. -/
def retryLoop (c : Graph.Config) (srt : Sorter I) (env : Env I) (fuel : Nat) (v : I) (r : Option Retry)
    (search : Nat → Nat → List (I × Rat)) :
    (left attempt l : Nat) → (buffer : List I) → Option (List (Nat × Bool) × List I)
  | 0, _, _, buffer => some ([], buffer)
  | left + 1, attempt, l, buffer =>
    let force := r.any fun r => r.shouldSaturate attempt
    let new := if search attempt l = [] then some buffer
      else occludeList c (srt.run (search attempt l) c.maxOcclusion) env.view (fun i => decide (i = v)) env.dd force fuel
    match new with
    | none => none
    | some buffer =>
      if r.any fun r => r.shouldRetry attempt buffer.length then
        (retryLoop c srt env fuel v r search left (attempt + 1) (l * 2) buffer).map fun (log, out) =>
          ((l, force) :: log, out)
      else some ([(l, force)], buffer)

/-- `insert` (index.rs:262–343) after the vector is stored: attempts, out-edges, back-edges. -/
def insertRetrying (c : Cfg) (srt : Sorter I) (env : Env I) (fuel : Nat) (g : Graph I) (v : I)
    (search : Nat → Nat → List (I × Rat)) : Option (List (Nat × Bool) × Graph I) :=
  match retryLoop c.graph srt env fuel v c.retry search (attempts c.retry) 0 c.lBuild [] with
  | none => none
  | some (log, new) =>
    ((new.take c.maxBackedges).foldl (fun st source =>
      match st with
      | none => none
      | some (g, scratch) => addEdgeAndPrune c.graph srt env fuel g [v] source scratch (fun _ => false))
      (some (setNeighbors g v new, ([] : List I)))).map fun st => (log, st.1)

end Verif.Config
