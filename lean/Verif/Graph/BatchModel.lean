import Verif.Graph.DeleteModel
import Verif.AsyncTools.Model

/-!
# Model of batch insertion (`multi_insert`) in `diskann/src/graph/index.rs`

The searches of a batch run before any edge is written, each on the graph as it was; the model takes their visited
records as given (`rec pos`, the record of the last attempt, and `force pos`, its saturation flag). Tasks claim batch
positions from a shared counter; an error ends a task and is logged. What the tasks jointly hand over is a list of
positions in some order (`done`), each at most once (C26); a position whose prune failed, or that nobody claimed,
contributes nothing. Hard provider errors while writing are not modelled.
-/

namespace Verif.Graph

variable {I : Type} [LinearOrder I]

/-- `IntraBatchCandidates` (config/mod.rs:120–172). -/
inductive IntraBatch where
  | none
  | max (n : Nat)
  | all
deriving DecidableEq

/-- `IntraBatchCandidates::get` (config/mod.rs:160–166). -/
def IntraBatch.get (b : IntraBatch) (batchSize : Nat) : Nat :=
  match b with
  | .none => 0
  | .max n => min n batchSize
  | .all => batchSize

/-- `PendingEdge` (index.rs:111–121): source and its out-edges. -/
abbrev Pending (I : Type) := I × List I

/-- `HashMap<I, BackedgeBuffer<I>>`. -/
structure BackMap (I : Type) where
  keys : List I
  get : I → Backedge I

/-- `entry(target).and_modify(push).or_insert_with(new)` (index.rs:135–139). -/
def BackMap.add (m : BackMap I) (target source : I) : BackMap I :=
  if target ∈ m.keys then ⟨m.keys, Function.update m.get target ((m.get target).push source).1⟩
  else ⟨m.keys ++ [target], Function.update m.get target (.one source)⟩

/-- `aggregate_backedges` (index.rs:123–144). -/
def aggregate (edges : List (Pending I)) : BackMap I :=
  edges.foldl (fun m p => p.2.foldl (fun m t => m.add t p.1) m) ⟨[], fun _ => .none⟩

/-- `robust_prune_with` (index.rs:2475–2530). `fill l i`: after `PruneAccessor::fill` of the ids `l`, the view has the
vector of `i`. The ids handed to `fill` are cut at `max_occlusion_size` in the order of the record, before the record
is sorted. -/
def robustPruneWith (c : Config) (srt : Sorter I) (fill : List I → I → Bool) (dd : I → I → Rat) (fuel : Nat) (v : I)
    (extras : List I) (record : List (I × Rat)) (force : Bool) : Option (ListResult × List I) :=
  let view := fill ((v :: (extras ++ record.map (·.1))).take c.maxOcclusion)
  if extras ≠ [] ∧ view v = false then some (.failedRetrieval, [])
  else
    let record' := record ++ (extras.filter view).map fun i => (i, dd v i)
    (occludeList c (srt.run record' c.maxOcclusion) view (fun i => decide (i = v)) dd force fuel).map
      fun l => (.ok, l)

/-- The result of `search_and_prune` (index.rs:349–433) for one batch position, given the search record. -/
def searchAndPrune (c : Config) (srt : Sorter I) (fill : List I → I → Bool) (dd : I → I → Rat) (fuel : Nat)
    (intra : IntraBatch) (ids : List I) (rec : Nat → List (I × Rat)) (force : Nat → Bool) (pos : Nat) :
    Option (List (Pending I)) :=
  match ids[pos]? with
  | none => none
  | some v =>
    (robustPruneWith c srt fill dd fuel v
      ((AsyncTools.around ids pos (intra.get ids.length)).filterMap id) (rec pos) (force pos)).map fun r =>
        match r.1 with
        | .ok => [(v, r.2)]
        | .failedRetrieval => []

/-- One bootstrap replacement, `multi_insert_bootstrap_leaf` (index.rs:594–642). A failed prune is an error: the task
ends and the edge is lost. -/
def bootstrapLeaf (c : Config) (srt : Sorter I) (env : Env I) (fuel : Nat) (batch : List (Pending I)) (pos : Nat) :
    Option (List (Pending I)) :=
  match batch[pos]? with
  | none => none
  | some cur =>
    let cands := fromIterUntrusted (cur.2 ++ (batch.filterMap fun p => if p.1 = cur.1 then none else some p.1))
    (robustPruneList c srt env fuel cur.1 cands [] true).map fun r =>
      match r.1 with
      | .ok => [(cur.1, r.2)]
      | .failedRetrieval => []

/-- Collect what the tasks hand over. -/
def collect {α : Type} (f : α → Option (List (Pending I))) : List α → Option (List (Pending I))
  | [] => some []
  | p :: ps =>
    match f p, collect f ps with
    | some l, some r => some (l ++ r)
    | _, _ => none

/-- The bootstrap test (index.rs:926–928). -/
def needsBootstrap (intra : IntraBatch) (n nkeys : Nat) : Bool :=
  decide (max (intra.get n) 1 < n) && decide ((nkeys + 7) / 8 ≤ n)

/-- Candidate generation and the optional bootstrap (index.rs:845–941). `done2` are the claimed positions of the
bootstrap round. -/
def pendingEdges (c : Config) (srt : Sorter I) (env : Env I) (fill : List I → I → Bool) (fuel : Nat)
    (intra : IntraBatch) (ids : List I) (rec : Nat → List (I × Rat)) (force : Nat → Bool) (done done2 : List Nat) :
    Option (List (Pending I)) :=
  match collect (searchAndPrune c srt fill env.dd fuel intra ids rec force) done with
  | none => none
  | some edges =>
    if needsBootstrap intra ids.length (aggregate edges).keys.length then
      collect (bootstrapLeaf c srt env fuel edges) done2
    else some edges

/-- `set_neighbors_bulk` (index.rs:957–965): one `set_neighbors` per pending edge. -/
def setBulk (g : Graph I) (edges : List (Pending I)) : Graph I := edges.foldl (fun g p => setNeighbors g p.1 p.2) g

/-- One back-edge task (index.rs:978–1011): its range of the map's iteration order, each buffer sorted, one scratch.
Tasks work on different sources and an update reads and writes one source's list only, so the tasks are run one after
the other here; `C64_schedule_independent` shows the order does not matter. -/
def backedgeTask (c : Config) (srt : Sorter I) (env : Env I) (fuel : Nat) (m : BackMap I) (keys : List I)
    (ntasks i : Nat) (g : Graph I) : Option (Graph I) :=
  let r := AsyncTools.partitionImpl keys.length ntasks i
  (applyEdges c srt env fuel (fun _ => false) (fun k => (m.get k).toList.insertionSort (· ≤ ·))
    ((keys.drop r.1).take (r.2 - r.1)) (g, [])).map (·.1)

/-- The back-edge tasks `is` (index.rs:968–1014). -/
def backedgeTasks (c : Config) (srt : Sorter I) (env : Env I) (fuel : Nat) (m : BackMap I) (keys : List I)
    (ntasks : Nat) : List Nat → Graph I → Option (Graph I)
  | [], g => some g
  | i :: is, g =>
    match backedgeTask c srt env fuel m keys ntasks i g with
    | none => none
    | some g => backedgeTasks c srt env fuel m keys ntasks is g

/-- `multi_insert` (index.rs:819–1032) after `set_elements` gave the batch its internal ids. `order` is the iteration
order of the hash map. -/
def multiInsert (c : Config) (srt : Sorter I) (env : Env I) (fill : List I → I → Bool) (fuel : Nat)
    (intra : IntraBatch) (ntasks : Nat) (ids : List I) (rec : Nat → List (I × Rat)) (force : Nat → Bool)
    (done done2 : List Nat) (order : List I → List I) (g : Graph I) : Option (Graph I) :=
  match pendingEdges c srt env fill fuel intra ids rec force done done2 with
  | none => none
  | some edges =>
    let m := aggregate edges
    backedgeTasks c srt env fuel m (order m.keys) ntasks (List.range ntasks) (setBulk g edges)

end Verif.Graph
