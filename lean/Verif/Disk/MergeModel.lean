import Verif.Disk.GraphFileModel
import Mathlib.Data.List.Sort

/-!
# Model of the sharded build

Partitioning the points over shards (`shard_data_into_clusters_only_ids`, diskann-disk/src/utils/partition.rs;
`compute_closest_centers_in_block`, diskann-disk/src/utils/math_util.rs) and merging the graphs of the shards
(`MergedVamanaIndexBuilder::merge_shards`, diskann-disk/src/build/builder/core.rs).

Distances are rational numbers. An id map file and a shard graph file are the list of ids and the lists they hold
(C68 and C70 are about the bytes); a shard graph is read front to back. `none` is a panic.
-/

namespace Verif.Disk

/-! ## Closest centres -/

/-- The loop for `k = 1` (math_util.rs:206–220): the running minimum starts at `f32::MAX`. -/
def nearestLoop : List Rat → Nat → Rat → Nat → Nat
  | [], _, _, best => best
  | d :: ds, j, min, best => if d < min then nearestLoop ds (j + 1) d j else nearestLoop ds (j + 1) min best

/-- What `compute_closest_centers_in_block` writes for a point at distances `ds` from the centres
(math_util.rs:138–246). `pops` is the order in which the heap gives the centres back when `k > 1`; `none` is
the error for fewer than `k` centres. -/
def closestCenters (fmax : Rat) (k : Nat) (ds : List Rat) (pops : List Nat) : Option (List Nat) :=
  if ds.length < k then none
  else some (if k = 1 then [nearestLoop ds 0 fmax 0] else pops.take k)

/-- A heap of all centres, closest first, ties in any order. -/
structure PopOrder (ds : List Rat) (pops : List Nat) : Prop where
  perm : pops.Perm (List.range ds.length)
  sorted : pops.Pairwise fun a b => ∀ da db, ds[a]? = some da → ds[b]? = some db → da ≤ db

/-! ## Partition -/

/-- The ids of the points in the order they are handled, block by block (partition.rs:288–301, 331–341). -/
def blockIds (n block : Nat) : List Nat :=
  (List.range ((n + block - 1) / block)).flatMap fun b =>
    (List.range (min ((b + 1) * block) n - b * block)).map fun p => b * block + p

/-- The id maps (partition.rs:331–341): each point is appended to the maps of its `k` centres. -/
def idMapsLoop (centers : Nat → List Nat) : List Nat → List (List Nat) → List (List Nat)
  | [], maps => maps
  | p :: ps, maps => idMapsLoop centers ps ((centers p).foldl (fun maps s => maps.modify s (· ++ [p])) maps)

/-- `shard_data_into_clusters_only_ids` (partition.rs:240–358) with `block_size` as in lines 288–292; `none`: the
division by the block size panics without points. -/
def partitionIds (centers : Nat → List Nat) (parts n large : Nat) : Option (List (List Nat)) :=
  if (if n ≤ large then n else large) = 0 then none
  else some (idMapsLoop centers (blockIds n (if n ≤ large then n else large)) (List.replicate parts []))

/-! ## Merge -/

/-- A shard graph file: one list per point of the shard, in shard ids, and the medoid. -/
structure ShardGraph where
  lists : List (List Nat)
  medoid : Nat

/-- Outcome of a merge. -/
inductive MergeRes (α : Type) where
  | panic
  | err
  | ok (a : α)
deriving DecidableEq

/-- State of the merge loop (core.rs:362–366). -/
structure MergeSt where
  cur : Nat
  final : List Nat
  inSet : Nat → Bool
  readers : Nat → List (List Nat)
  out : List (List Nat)
  size : Nat

/-- `num_nodes` (core.rs:269). -/
def numNodes (idMaps : List (List Nat)) : Nat := idMaps.flatten.foldl max 0 + 1

/-- `node_shard` (core.rs:274–281). -/
def nodeShard (idMaps : List (List Nat)) : List (Nat × Nat) :=
  (idMaps.zipIdx.flatMap fun x => x.1.map fun v => (v, x.2)).insertionSort
    fun a b => a.1 < b.1 ∨ (a.1 = b.1 ∧ a.2 ≤ b.2)

/-- Writing the list of the current node (core.rs:370–391, 419–431). `shuffle i` is the `i`-th shuffle. -/
def writeNode (maxDegree : Nat) (shuffle : Nat → List Nat → List Nat) (st : MergeSt) : MergeSt :=
  let l := (shuffle st.out.length st.final).take maxDegree
  { st with
    out := st.out ++ [l]
    size := st.size + (4 + l.length * 4)
    inSet := fun v => if v ∈ st.final then false else st.inSet v
    final := [] }

/-- Renaming the neighbours of one list (core.rs:407–415); `none`: an index is out of bounds. -/
def addNbrs (ids : List Nat) (nodes : Nat) : List Nat → List Nat × (Nat → Bool) → Option (List Nat × (Nat → Bool))
  | [], a => some a
  | j :: js, (final, inSet) =>
    match ids[j]? with
    | none => none
    | some w =>
      if nodes ≤ w then none
      else if inSet w then addNbrs ids nodes js (final, inSet)
      else addNbrs ids nodes js (final ++ [w], Function.update inSet w true)

/-- One pair of `node_shard` (core.rs:367–416). -/
def mergePair (idMaps : List (List Nat)) (maxDegree : Nat) (shuffle : Nat → List Nat → List Nat) (st : MergeSt)
    (p : Nat × Nat) : MergeRes MergeSt :=
  let st := if st.cur < p.1 then { writeNode maxDegree shuffle st with cur := p.1 } else st
  match st.readers p.2 with
  | [] => .err
  | l :: rest =>
    match addNbrs (idMaps.getD p.2 []) (numNodes idMaps) l (st.final, st.inSet) with
    | none => .panic
    | some (final, inSet) =>
      .ok { st with final := final, inSet := inSet, readers := Function.update st.readers p.2 rest }

/-- The merge loop (core.rs:367–416). -/
def mergeLoop (idMaps : List (List Nat)) (maxDegree : Nat) (shuffle : Nat → List Nat → List Nat) :
    MergeSt → List (Nat × Nat) → MergeRes MergeSt
  | st, [] => .ok st
  | st, p :: ps =>
    match mergePair idMaps maxDegree shuffle st p with
    | .ok st => mergeLoop idMaps maxDegree shuffle st ps
    | .err => .err
    | .panic => .panic

/-- The renamed medoids; the last one is written (core.rs:338–353). -/
def lastMedoid : List (List Nat) → List ShardGraph → Option Nat
  | [ids], [g] => ids[g.medoid]?
  | ids :: idMaps, g :: shards =>
    match ids[g.medoid]? with
    | none => none
    | some _ => lastMedoid idMaps shards
  | _, _ => none

/-- What `merge_shards` writes. -/
structure Merged where
  lists : List (List Nat)
  start : Nat
  size : Nat
deriving DecidableEq

/-- `merge_shards` (core.rs:245–433). -/
def mergeShards (idMaps : List (List Nat)) (shards : List ShardGraph) (maxDegree : Nat)
    (shuffle : Nat → List Nat → List Nat) : MergeRes Merged :=
  match lastMedoid idMaps shards with
  | none => .panic
  | some start =>
    let st : MergeSt := ⟨0, [], fun _ => false, fun s => (shards[s]?).elim [] ShardGraph.lists, [], 24⟩
    match mergeLoop idMaps maxDegree shuffle st (nodeShard idMaps) with
    | .panic => .panic
    | .err => .err
    | .ok st =>
      let st := writeNode maxDegree shuffle st
      .ok ⟨st.out, start, st.size⟩

/-- The writes of `merge_shards` (core.rs:311–312, 335, 351, 358, 373–380, 421–430, 436–437). -/
def mergedOps (m : Merged) (maxDegree : Nat) : List WOp :=
  [.write (leEncode 8 24), .write (leEncode 4 maxDegree), .write (leEncode 4 m.start), .write (leEncode 8 0)] ++
    m.lists.flatMap (fun l => [.write (leEncode 4 l.length), .write (l.map (leEncode 4)).flatten]) ++
    [.reset, .write (leEncode 8 m.size), .flush]

/-- The merged graph file. -/
def mergedFile (m : Merged) (maxDegree : Nat) : List Byte := (specWrites ([], 0) (mergedOps m maxDegree)).1

end Verif.Disk
