import Verif.Disk.LayoutProps
import Verif.Disk.CacheModel
import Verif.Graph.AdjModel
import Mathlib.Order.Nat
/-
Model of the breadth-first construction of the static cache and of the caching vertex provider.

Sources: /repo/diskann-disk/src/search/provider/disk_vertex_provider_factory.rs (BFS cache),
/repo/diskann-disk/src/search/provider/cached_disk_vertex_provider.rs.

Simplifications: vector elements are bytes, so the cache's dimension is the number of bytes of a vector;
`visited` is a list; any error or panic is `none`; statistics counters are not modelled.
-/
namespace Verif.Disk

open Verif.Graph (fromIterUntrusted)

abbrev DiskCache := Cache Byte (List Byte)

/-- `BEAM_WIDTH_FOR_BFS` (disk_vertex_provider_factory.rs 31). -/
def beamWidthForBfs : Nat := 32

/-- `insert_in_cache` (disk_vertex_provider_factory.rs 264-284). -/
def insertInCache (v : Provider) (c : DiskCache) (node idx : Nat) : Option (Provider × DiskCache) := do
  let v ← v.process node idx
  let vec ← v.getVector node
  let adj ← v.getAdj node
  let a ← v.getAssoc node
  let (c, ok) ← c.insert node vec (fromIterUntrusted adj) a
  if ok then some (v, c) else none

/-- `for neighbor_id in adjacency_list.iter()` (disk_vertex_provider_factory.rs 250-255). -/
def pushUnvisited (queue visited : List Nat) : List Nat → List Nat × List Nat
  | [] => (queue, visited)
  | n :: ns =>
    if n ∈ visited then pushUnvisited queue visited ns
    else pushUnvisited (queue ++ [n]) (n :: visited) ns

/-- State of `build_cache_via_bfs`. -/
structure Bfs where
  v : Provider
  c : DiskCache
  queue : List Nat
  visited : List Nat

/-- `for (idx, node) in nodes_in_a_batch.iter().enumerate()` (disk_vertex_provider_factory.rs 241-259). -/
def Bfs.batch (target : Nat) (b : Bfs) (idx : Nat) : List Nat → Option Bfs
  | [] => some b
  | node :: rest => do
    let (v, c) ← insertInCache b.v b.c node idx
    let adj ← (← c.getAdj node)
    let (queue, visited) := pushUnvisited b.queue b.visited adj
    let b := { v := v, c := c, queue := queue, visited := visited : Bfs }
    if c.mapping.length ≥ target then some b else b.batch target (idx + 1) rest

/-- The outer `while` (disk_vertex_provider_factory.rs 225-260); running out of fuel is `none`. -/
def Bfs.loop (file : List Byte) (align target : Nat) : Nat → Bfs → Option Bfs
  | 0, _ => none
  | fuel + 1, b =>
    if b.queue ≠ [] ∧ b.c.mapping.length < target then do
      let nodes := b.queue.take beamWidthForBfs
      let v ← b.v.load file align nodes
      let b ← { b with v := v, queue := b.queue.drop beamWidthForBfs : Bfs }.batch target 0 nodes
      b.loop file align target fuel
    else some b

/-- `build_cache_via_bfs` (disk_vertex_provider_factory.rs 203-262). -/
def buildCacheViaBfs (file : List Byte) (align : Nat) (h : Header) (elemSize start target : Nat)
    (fuel : Nat) : Option DiskCache := do
  let b ← Bfs.loop file align target fuel
    { v := Provider.new h elemSize beamWidthForBfs, c := Cache.new 0 (h.md.dims * elemSize) target,
      queue := [start], visited := [start] }
  some b.c

/-- `setup_cache` (disk_vertex_provider_factory.rs 170-201) for `StaticCacheWithBfsNodes(num)`: zero is
an error, more than the number of points is reduced. -/
def setupCache (file : List Byte) (align : Nat) (h : Header) (elemSize num fuel : Nat) : Option DiskCache :=
  if num = 0 then none
  else
    let num := if num > h.md.numPts then h.md.numPts else num
    buildCacheViaBfs file align h elemSize h.md.medoid num fuel

/-- `CachedDiskVertexProvider` (cached_disk_vertex_provider.rs 24-41); `remap` is
`nodes_to_fetch_local_idx_to_filtered_idx`. -/
structure CachedProvider where
  cache : DiskCache
  inner : Provider
  remap : List (Nat × Nat)

/-- `filter_cached_nodes` (cached_disk_vertex_provider.rs 137-152): starting at local index `idx` with
`n` uncached ids so far. -/
def filterCached (c : DiskCache) (idx n : Nat) : List Nat → List (Nat × Nat) × List Nat
  | [] => ([], [])
  | id :: ids =>
    if c.contains id then filterCached c (idx + 1) n ids
    else
      let (m, u) := filterCached c (idx + 1) (n + 1) ids
      ((idx, n) :: m, id :: u)

/-- `load_vertices` (cached_disk_vertex_provider.rs 78-89). -/
def CachedProvider.load (v : CachedProvider) (file : List Byte) (align : Nat) (ids : List Nat) :
    Option CachedProvider :=
  let (m, u) := filterCached v.cache 0 0 ids
  if u = [] then some { v with remap := m }
  else do
    let inner ← v.inner.load file align u
    some { v with inner := inner, remap := m }

/-- `process_loaded_node` (cached_disk_vertex_provider.rs 91-101). -/
def CachedProvider.process (v : CachedProvider) (id idx : Nat) : Option CachedProvider :=
  if v.cache.contains id then some v
  else do
    let i ← v.remap.lookup idx
    let inner ← v.inner.process id i
    some { v with inner := inner }

def CachedProvider.processAll (v : CachedProvider) : List (Nat × Nat) → Option CachedProvider
  | [] => some v
  | (id, idx) :: rest => do (← v.process id idx).processAll rest

/-- `get_vector` (cached_disk_vertex_provider.rs 48-56). -/
def CachedProvider.getVector (v : CachedProvider) (id : Nat) : Option (List Byte) := do
  match ← v.cache.getVector id with
  | some x => some x
  | none => v.inner.getVector id

/-- `get_adjacency_list` (cached_disk_vertex_provider.rs 58-66). -/
def CachedProvider.getAdj (v : CachedProvider) (id : Nat) : Option (List Nat) := do
  match ← v.cache.getAdj id with
  | some x => some x
  | none => v.inner.getAdj id

/-- `get_associated_data` (cached_disk_vertex_provider.rs 68-76). -/
def CachedProvider.getAssoc (v : CachedProvider) (id : Nat) : Option (List Byte) := do
  match ← v.cache.getAssoc id with
  | some x => some x
  | none => v.inner.getAssoc id

/-- Batches of load + process on a caching provider. -/
def CachedProvider.batches (v : CachedProvider) (file : List Byte) (align : Nat) :
    List (List Nat × List (Nat × Nat)) → Option CachedProvider
  | [] => some v
  | (ids, order) :: bs => do
    let v ← v.load file align ids
    (← v.processAll order).batches file align bs

end Verif.Disk
