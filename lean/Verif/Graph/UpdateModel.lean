import Verif.Graph.PruneModel

/-!
# Model of the graph update operations of `diskann/src/graph/index.rs`

A graph maps every vertex to its adjacency list. `get_neighbors` reads it, `set_neighbors` replaces
one list, `append_vector` appends to one list. The provider state an operation sees (deleted ids,
available vectors, distances) is an `Env`; it may differ from one operation to the next.
Hard provider errors abort an operation before it writes and are not modelled.
-/

namespace Verif.Graph

variable {I : Type} [DecidableEq I]

/-- What an operation observes of the data provider. -/
structure Env (I : Type) where
  /-- `status_by_internal_id` is `Deleted` or an error (index.rs:1093–1101). -/
  deleted : I → Bool
  /-- `view.get(id)` is `Some` after `PruneAccessor::fill`. -/
  view : I → Bool
  /-- `computer.evaluate_similarity`. -/
  dd : I → I → Rat

abbrev Graph (I : Type) := I → List I

/-- `prune::ListError::FailedVectorRetrieval` or success (prune.rs:293–301). -/
inductive ListResult where
  | ok
  | failedRetrieval
deriving DecidableEq

/-- `robust_prune_list` (index.rs:2397–2454). `scratch` is `scratch.neighbors` as left by earlier
operations; the result is the outcome and the new `scratch.neighbors`. `none`: pruning does not
finish within the budget. -/
def robustPruneList (c : Config) (srt : Sorter I) (env : Env I) (fuel : Nat) (location : I)
    (list : List I) (scratch : List I) (force : Bool) : Option (ListResult × List I) :=
  if list = [] then some (.ok, scratch)
  else if env.view location = false then some (.failedRetrieval, scratch)
  else
    let pool := (list.filter fun i => decide (i ≠ location) && env.view i).map fun i =>
      (i, env.dd location i)
    (occludeList c (srt.run pool c.maxOcclusion) env.view (fun i => decide (i = location)) env.dd
      force fuel).map fun out => (.ok, out)

/-- `set_neighbors` (provider.rs:368). -/
def setNeighbors (g : Graph I) (v : I) (l : List I) : Graph I := Function.update g v l

/-- `append_vector` (provider.rs:378). -/
def appendVector (g : Graph I) (v : I) (l : List I) : Graph I := Function.update g v (g v ++ l)

/-- `add_edge_and_prune` (index.rs:2264–2341): the new graph and `scratch.neighbors`. A transient
`robust_prune_list` failure is swallowed (`allow_transient`, 2319–2324) and `scratch.neighbors` is
written anyway (2333–2336). -/
def addEdgeAndPrune (c : Config) (srt : Sorter I) (env : Env I) (fuel : Nat) (g : Graph I)
    (targets : List I) (source : I) (scratch : List I) (toRemove : I → Bool) :
    Option (Graph I × List I) :=
  let old := g source
  let didRemove := old.any toRemove
  let kept := old.filter fun i => !toRemove i
  let r := extendFromSlice kept targets
  if r.2 = 0 ∧ didRemove = false then some (g, scratch)
  else if r.1.length ≤ c.maxDegree then
    if didRemove then some (setNeighbors g source r.1, scratch)
    else
      match last r.1 r.2 with
      | some edges => some (appendVector g source edges, scratch)
      | none => some (g, scratch)
  else
    (robustPruneList c srt env fuel source r.1 scratch false).map fun (_, scratch') =>
      (setNeighbors g source scratch', scratch')

/-- `drop_adj_list` (index.rs:1060–1068). -/
def dropAdjList (g : Graph I) (v : I) : Graph I := setNeighbors g v []

/-- `ConsolidateKind`. -/
inductive ConsolidateKind where
  | complete
  | deleted
  | failedVectorRetrieval
deriving DecidableEq

/-- `drop_deleted_neighbors` (index.rs:1756–1816). -/
def dropDeletedNeighbors (c : Config) (env : Env I) (g : Graph I) (v : I) (onlyOrphans : Bool) :
    ConsolidateKind × Graph I :=
  if env.deleted v then (.deleted, g)
  else
    let undeleted := (g v).filter fun i => !env.deleted i
    let dead := (g v).filter env.deleted
    let pool := if onlyOrphans then undeleted ++ dead.filter (fun d => decide (g d ≠ [])) else undeleted
    if dead = [] ∧ pool.length ≤ c.prunedDegree then (.complete, g)
    else (.complete, setNeighbors g v pool)

/-- Inserting ids into a hash set; the set is kept as a list without duplicates. -/
def setInsertAll (s : List I) (l : List I) : List I := (extendFromSlice s l).1

/-- `consolidate_vector` (index.rs:1819–1931). `shuffle` is the unspecified iteration order of the
hash set. -/
def consolidateVector (c : Config) (srt : Sorter I) (env : Env I) (fuel : Nat)
    (shuffle : List I → List I) (g : Graph I) (v : I) : Option (ConsolidateKind × Graph I) :=
  if env.deleted v then some (.deleted, g)
  else
    let pool := setInsertAll [] ((g v).filter fun i => !env.deleted i)
    let dead := (g v).filter env.deleted
    if dead = [] ∧ pool.length ≤ c.prunedDegree then some (.complete, g)
    else
      let pool := dead.foldl (fun s d => setInsertAll s ((g d).filter fun i => !env.deleted i)) pool
      let pool := shuffle (pool.filter fun i => decide (i ≠ v))
      if pool.length < c.prunedDegree then some (.complete, setNeighbors g v pool)
      else
        (robustPruneList c srt env fuel v pool [] false).map fun (res, l) =>
          match res with
          | .failedRetrieval => (.failedVectorRetrieval, g)
          | .ok => (.complete, setNeighbors g v l)

/-- One iteration of `prune_range` (index.rs:2674–2696). A failed retrieval is escalated to an error:
the vertex is left alone. -/
def pruneVertex (c : Config) (srt : Sorter I) (env : Env I) (fuel : Nat) (g : Graph I) (v : I)
    (scratch : List I) : Option (Graph I × List I) :=
  if (g v).length ≤ c.prunedDegree then some (g, scratch)
  else
    (robustPruneList c srt env fuel v (g v) scratch false).map fun (res, scratch') =>
      match res with
      | .ok => (setNeighbors g v scratch', scratch')
      | .failedRetrieval => (g, scratch')

/-- The out-edges written by `insert` (index.rs:283–319): the search record is sorted, pruned against
the new vertex and stored. `record` is the search record. On an empty record `robust_prune` returns
early and the fresh, empty `new_neighbors` is stored. One attempt; retries are in `Verif/Config/Model.lean`. -/
def insertOutEdges (c : Config) (srt : Sorter I) (env : Env I) (fuel : Nat) (g : Graph I) (v : I)
    (record : List (I × Rat)) (force : Bool) : Option (Graph I × List I) :=
  let pool := srt.run record c.maxOcclusion
  (occludeList c pool env.view (fun i => decide (i = v)) env.dd force fuel).map fun l =>
    (setNeighbors g v l, l)

/-- `insert` (index.rs:283–343) after the search: out-edges, then one back-edge update for each of the
first `max_backedges` new neighbours, sharing one prune scratch. -/
def insertVertex (c : Config) (srt : Sorter I) (env : Env I) (fuel : Nat) (maxBackedges : Nat)
    (g : Graph I) (v : I) (record : List (I × Rat)) (force : Bool) : Option (Graph I) :=
  match insertOutEdges c srt env fuel g v record force with
  | none => none
  | some (g, new) =>
    ((new.take maxBackedges).foldl (fun st source =>
      match st with
      | none => none
      | some (g, scratch) => addEdgeAndPrune c srt env fuel g [v] source scratch (fun _ => false))
      (some (g, ([] : List I)))).map (·.1)

/-- A graph update operation; each carries what it observes of the provider. -/
inductive Op (I : Type) where
  | addEdge (env : Env I) (targets : List I) (source : I) (toRemove : I → Bool)
  | prune (env : Env I) (v : I)
  | consolidate (env : Env I) (shuffle : List I → List I) (v : I)
  | dropDeleted (env : Env I) (v : I) (onlyOrphans : Bool)
  | dropList (v : I)
  | insertOut (env : Env I) (v : I) (record : List (I × Rat)) (force : Bool)
  | insert (env : Env I) (maxBackedges : Nat) (v : I) (record : List (I × Rat)) (force : Bool)
  | freshScratch

/-- One step of a history; the state is the graph and the prune scratch. -/
def step (c : Config) (srt : Sorter I) (fuel : Nat) (st : Graph I × List I) :
    Op I → Option (Graph I × List I)
  | .addEdge env targets source toRemove =>
    addEdgeAndPrune c srt env fuel st.1 targets source st.2 toRemove
  | .prune env v => pruneVertex c srt env fuel st.1 v st.2
  | .consolidate env shuffle v =>
    (consolidateVector c srt env fuel shuffle st.1 v).map fun r => (r.2, st.2)
  | .dropDeleted env v oo => some ((dropDeletedNeighbors c env st.1 v oo).2, st.2)
  | .dropList v => some (dropAdjList st.1 v, st.2)
  | .insertOut env v record force =>
    (insertOutEdges c srt env fuel st.1 v record force).map fun r => (r.1, st.2)
  | .insert env mb v record force =>
    (insertVertex c srt env fuel mb st.1 v record force).map fun g => (g, st.2)
  | .freshScratch => some (st.1, [])

/-- A history of operations. -/
def run (c : Config) (srt : Sorter I) (fuel : Nat) (st : Graph I × List I) :
    List (Op I) → Option (Graph I × List I)
  | [] => some st
  | op :: ops =>
    match step c srt fuel st op with
    | some st => run c srt fuel st ops
    | none => none

end Verif.Graph
