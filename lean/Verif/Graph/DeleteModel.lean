import Verif.Graph.UpdateModel

/-!
# Model of in-place deletion in `diskann/src/graph/index.rs`

`inplace_delete` marks a vertex deleted in the provider, computes edge updates from what it can see around the vertex,
applies them one vertex at a time and finally empties the vertex's own list. Provider states are `Env`s: `env` is what
the computation of the updates sees (after the vertex was marked deleted), `env'` what their application sees.
Hard provider errors abort the operation and are not modelled.
-/

namespace Verif.Graph

variable {I : Type} [DecidableEq I]

/-- `HashMap<InternalId, Vec<InternalId>>`: its keys (in some order) and their values. -/
structure EdgeMap (I : Type) where
  keys : List I
  get : I → List I

def EdgeMap.empty : EdgeMap I := ⟨[], fun _ => []⟩

def EdgeMap.addKey (m : EdgeMap I) (k : I) : List I := if k ∈ m.keys then m.keys else m.keys ++ [k]

/-- `HashMap::insert` (index.rs:1698). -/
def EdgeMap.put (m : EdgeMap I) (k : I) (l : List I) : EdgeMap I := ⟨m.addKey k, Function.update m.get k l⟩

/-- `entry(k).or_insert_with(Vec::new).push(x)` (index.rs:1730–1733). -/
def EdgeMap.push (m : EdgeMap I) (k x : I) : EdgeMap I :=
  ⟨m.addKey k, Function.update m.get k ((if k ∈ m.keys then m.get k else []) ++ [x])⟩

/-- `InplaceDeleteMethod`. For `VisitedAndTopK` the model takes the ids left in `output` by the search and its
post-processing (index.rs:1191–1216) as given. -/
inductive DeleteMethod (I : Type) where
  | visitedAndTopK (results : List I) (k : Nat)
  | twoHopAndOneHop
  | oneHop

/-- `InplaceDeleteWorkList`. -/
structure WorkList (I : Type) where
  replace : List I
  inNeighbors : List I

/-- `on_neighbors` collecting the present ones (index.rs:1072–1136). `statuses_unordered` fixes no order; `sh` is the
order that comes out. -/
def undeletedNeighbors (env : Env I) (sh : List I → List I) (g : Graph I) (v : I) : List I :=
  sh ((g v).filter fun i => !env.deleted i)

/-- `return_refs_to_deleted_vertex` (index.rs:1139–1165). -/
def refsTo (g : Graph I) (v : I) (candidates : List I) : List I := candidates.filter fun x => decide (v ∈ g x)

/-- The three ways of finding in-neighbours and replacement candidates (index.rs:1170–1361). `sh` stands for both
`statuses_unordered` and the iteration order of the two-hop hash set. -/
def workList (env : Env I) (sh : List I → List I) (g : Graph I) (v : I) : DeleteMethod I → WorkList I
  | .visitedAndTopK results k => ⟨results.take k, refsTo g v results⟩
  | .twoHopAndOneHop =>
    let one := undeletedNeighbors env sh g v
    let two := one.foldl (fun s n => setInsertAll (setInsertAll s [n]) (g n)) []
    ⟨one, refsTo g v ((sh two).filter fun i => !env.deleted i)⟩
  | .oneHop =>
    let one := undeletedNeighbors env sh g v
    ⟨one, refsTo g v one⟩

/-- The `num` closest of the replacement candidates to `n`: pool, sort, take (index.rs:1671–1697 and 1702–1729).
Skips `n` itself and candidates whose vector cannot be read. -/
def closest (env : Env I) (srt : Sorter I) (num : Nat) (replace : List I) (n : I) : List I :=
  (srt.run ((replace.filter fun o => decide (o ≠ n) && env.view o).map fun o => (o, env.dd n o)) num).map (·.1)

/-- The two loops of `inplace_delete_inner` (index.rs:1664–1742). -/
def deleteEdges (env : Env I) (srt : Sorter I) (num : Nat) (w : WorkList I) (adj : List I) : EdgeMap I :=
  let m := w.inNeighbors.foldl (fun m n => if env.view n then m.put n (closest env srt num w.replace n) else m)
    EdgeMap.empty
  adj.foldl (fun m y =>
    if env.view y then (closest env srt num w.replace y).foldl (fun m n => m.push n y) m else m) m

/-- `inplace_delete_inner` after the provider's `delete` (index.rs:1583–1748). -/
def deleteInner (env : Env I) (srt : Sorter I) (num : Nat) (sh : List I → List I) (g : Graph I) (v : I)
    (method : DeleteMethod I) : EdgeMap I :=
  deleteEdges env srt num (workList env sh g v method) (undeletedNeighbors env sh g v)

/-- The loop over `edges_to_add` in `inplace_delete` (index.rs:1563–1572). -/
def applyEdges (c : Config) (srt : Sorter I) (env : Env I) (fuel : Nat) (toRemove : I → Bool) (get : I → List I) :
    List I → Graph I × List I → Option (Graph I × List I)
  | [], st => some st
  | k :: ks, (g, scratch) =>
    match addEdgeAndPrune c srt env fuel g (get k) k scratch toRemove with
    | none => none
    | some st => applyEdges c srt env fuel toRemove get ks st

/-- `inplace_delete` (index.rs:1527–1581). `order` is the iteration order of the hash map. -/
def inplaceDelete (c : Config) (srt : Sorter I) (env env' : Env I) (fuel num : Nat) (sh order : List I → List I)
    (g : Graph I) (v : I) (method : DeleteMethod I) : Option (Graph I) :=
  let m := deleteInner env srt num sh g v method
  (applyEdges c srt env' fuel (fun i => decide (i = v)) m.get (order m.keys) (g, [])).map fun st => dropAdjList st.1 v

/-- The parallel part of `multi_inplace_delete` for one chunk (index.rs:1436–1498): every source gets the lists the
chunk's deletions computed for it, one after the other, with a fresh scratch. Tasks touch different sources, so an
order of the sources represents their schedule. -/
def applyBatch (c : Config) (srt : Sorter I) (env : Env I) (fuel : Nat) (toRemove : I → Bool)
    (maps : List (EdgeMap I)) : List I → Graph I → Option (Graph I)
  | [], g => some g
  | k :: ks, g =>
    match addEdgeAndPrune c srt env fuel g (maps.flatMap fun m => if k ∈ m.keys then m.get k else []) k [] toRemove with
    | none => none
    | some st => applyBatch c srt env fuel toRemove maps ks st.1

/-- One chunk of `multi_inplace_delete` (index.rs:1384–1512). The deletions of a chunk run concurrently: each has its
own view `t.2.1` of which vertices are already deleted, and its own method. -/
def batchDelete (c : Config) (srt : Sorter I) (env' : Env I) (fuel num : Nat) (sh order : List I → List I)
    (g : Graph I) (tasks : List (I × Env I × DeleteMethod I)) : Option (Graph I) :=
  let maps := tasks.map fun t => deleteInner t.2.1 srt num sh g t.1 t.2.2
  let ids := tasks.map (·.1)
  let keys := maps.foldl (fun s m => setInsertAll s m.keys) []
  (applyBatch c srt env' fuel (fun i => decide (i ∈ ids)) maps (order keys) g).map fun g' =>
    ids.foldl dropAdjList g'

end Verif.Graph
