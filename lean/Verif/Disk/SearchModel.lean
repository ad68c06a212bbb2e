import Verif.Search.Model

/-!
# Model of the disk index searcher

`diskann-disk/src/search/provider/disk_provider.rs`: `DiskAccessor` (`pq_distances`, `expand_beam`,
`ensure_loaded`), the post-processors, `SearchOutput`, `flat_search`, `search`,
`search_with_indexed_vectors`, for the modes `FlatScan`, `Graph` and `DiverseGraph`.

Simplifications. The vertex provider is what C60 and C61 prove about it: after `ensure_vertex_loaded`
of a batch of distinct ids, the getters answer with the stored vertex for exactly the ids of the batch;
a batch with a repeated id is outside that contract and is a panic here. Quantized distances
(`compute_pq_distance` after `quantizer_preprocess`, C80) are a function `quant` of the id, `none` being
NaN; full-precision distances to the query are a function `exact` of the stored vector and are not NaN.
Ids, counters and `u32`/`usize` casts are `Nat`. The hash map of computed distances is a function. Timers
are not modelled. `reads` logs the vertices read from disk; the code has no such field and nothing reads
it. `sort_unstable_by` is the parameter `srt` (constrained by `IsSort` in the specification), the
diversity selection is the parameter `sel`. The inline-filter mode is the traversal of C65 followed by
`rerank`, and is not repeated here.
-/

namespace Verif.DiskSearch

open Verif.Queue Verif.Search

variable {V A D : Type} [LinearOrder D]

/-- A value, an error returned to the caller, or a panic (also: exhausted loop allowance). -/
inductive Res (α : Type) where
  | ok (a : α)
  | err
  | panic
deriving DecidableEq

/-- `?`. -/
def Res.bind {α β : Type} : Res α → (α → Res β) → Res β
  | .ok a, f => f a
  | .err, _ => .err
  | .panic, _ => .panic

/-- A computation that can only panic. -/
def Res.ofOption {α : Type} : Option α → Res α
  | some a => .ok a
  | none => .panic

instance : Monad Res where
  pure := .ok
  bind := Res.bind

/-- What the index file stores for a vertex. -/
structure Vertex (V A : Type) where
  vec : V
  adj : List Nat
  assoc : A

/-- `DiskProvider` (disk_provider.rs:73–95) together with the index file and the query:
`num_points`, the medoid of the header, `max_vectors` of the quantization scratch (= graph degree),
`search_io_limit`, and the two distances to the query. -/
structure Index (V A D : Type) where
  node : Nat → Option (Vertex V A)
  numPoints : Nat
  medoid : Nat
  maxVectors : Nat
  ioLimit : Nat
  exact : V → D
  quant : Nat → Option D

/-- `DiskSearchScratch` (disk_provider.rs:678–687) and the counter of `IOTracker`
(disk_provider.rs:257–290). `cacheVecs` is `cache_indexed_vectors` of the accessor. -/
structure Acc (V A D : Type) where
  cache : Nat → Option (D × A × Option V)
  batch : List Nat
  io : Nat
  reads : List Nat
  cacheVecs : Bool

/-- `DiskAccessor::new` (disk_provider.rs:852–899): takes a scratch from the pool, and `try_modify`
(disk_provider.rs:727–734) empties it; the counter starts at zero (`IOTracker::default`, 1374). -/
def Acc.new (_pooled : Acc V A D) (cacheVecs : Bool) : Acc V A D :=
  { cache := fun _ => none, batch := [], io := 0, reads := [], cacheVecs }

/-- `ensure_vertex_loaded` (disk_provider.rs:1485–1494). -/
def ensureVertexLoaded (ix : Index V A D) (a : Acc V A D) (ids : List Nat) : Res (Acc V A D) :=
  if ids.Nodup then
    if ids.all fun i => (ix.node i).isSome then .ok { a with batch := ids, reads := a.reads ++ ids }
    else .err
  else .panic

/-- `get_vector`, `get_adjacency_list`, `get_associated_data` of the vertex provider
(traits/vertex_provider.rs:25–60): an error for ids outside the loaded batch. -/
def getVertex (ix : Index V A D) (a : Acc V A D) (id : Nat) : Res (Vertex V A) :=
  if id ∈ a.batch then
    match ix.node id with
    | some v => .ok v
    | none => .err
  else .err

/-- `HashMap::insert` and `HashMap::remove` of `distance_cache`. -/
def cacheSet {α : Type} (c : Nat → Option α) (id : Nat) (x : Option α) : Nat → Option α :=
  fun j => if j = id then x else c j

/-- The loop of `ensure_loaded` over the loaded ids (disk_provider.rs:913–924). -/
def cacheDistances (ix : Index V A D) : List Nat → Acc V A D → Res (Acc V A D)
  | [], a => .ok a
  | id :: ids, a => do
    let v ← getVertex ix a id
    let e := (ix.exact v.vec, v.assoc, if a.cacheVecs then some v.vec else none)
    cacheDistances ix ids { a with cache := cacheSet a.cache id (some e) }

/-- `ensure_loaded` (disk_provider.rs:901–926). -/
def ensureLoaded (ix : Index V A D) (a : Acc V A D) (ids : List Nat) : Res (Acc V A D) :=
  if ids = [] then .ok a
  else do
    let a ← ensureVertexLoaded ix a ids
    cacheDistances ix ids { a with io := a.io + ids.length }

/-- `pq_distances` (disk_provider.rs:756–776): more ids than the scratch holds panic, an id without
stored codes is an error. -/
def pqDistances (ix : Index V A D) (ids : List Nat) : Res (List (Nat × Option D)) :=
  if ix.maxVectors < ids.length then .panic
  else if ids.all fun i => decide (i < ix.numPoints) then .ok (ids.map fun i => (i, ix.quant i))
  else .err

/-- The loop of `expand_beam` over the loaded ids (disk_provider.rs:822–835); the predicate is
`NotInMut` over the visited set. Returns the visited set and the computed distances in order. -/
def expandEach (ix : Index V A D) (a : Acc V A D) :
    List Nat → List Nat → Res (List Nat × List (Nat × Option D))
  | [], visited => .ok (visited, [])
  | i :: is, visited => do
    let v ← getVertex ix a i
    let r := forward visited v.adj
    let ds ← pqDistances ix r.2
    let rest ← expandEach ix a is r.1
    pure (rest.1, ds ++ rest.2)

/-- `expand_beam` (disk_provider.rs:805–840); the subtraction of `usize` panics below zero. -/
def expandBeamD (ix : Index V A D) (a : Acc V A D) (visited ids : List Nat) :
    Res (Acc V A D × List Nat × List (Nat × Option D)) :=
  if ix.ioLimit < a.io then .panic
  else do
    let load := ids.take (ix.ioLimit - a.io)
    let a ← ensureLoaded ix a load
    let r ← expandEach ix a load visited
    pure (a, r.1, r.2)

/-- `terminate_early` (disk_provider.rs:842–844). -/
def terminateEarly (ix : Index V A D) (a : Acc V A D) : Bool := decide (ix.ioLimit < a.io)

/-- One round of `search_internal` (diskann/src/graph/index.rs:1962–1992) over the disk accessor. -/
def round (pad : D) (ix : Index V A D) (beam : Nat) (a : Acc V A D) (s : St Nat D) :
    Res (Acc V A D × St Nat D) := do
  let b ← Res.ofOption (fillBeam s.best beam)
  let r ← expandBeamD ix a s.visited b.1
  let q ← Res.ofOption (r.2.2.foldlM (fun q x => Queue.insert pad q x.1 x.2) b.2)
  pure (r.1, { best := q, visited := r.2.1, cmps := s.cmps + r.2.2.length,
               hops := s.hops + b.1.length, computed := s.computed ++ r.2.2.map (·.1),
               expanded := s.expanded ++ b.1 })

/-- The loop of `search_internal` (index.rs:1961–1993). -/
def loop (pad : D) (ix : Index V A D) (beam : Nat) :
    Nat → Acc V A D → St Nat D → Res (Acc V A D × St Nat D)
  | 0, _, _ => .panic
  | fuel + 1, a, s =>
    if s.best.hasNotVisited && !terminateEarly ix a then do
      let r ← round pad ix beam a s
      loop pad ix beam fuel r.1 r.2
    else .ok (a, s)

/-- `start_point_distances` (disk_provider.rs:797–803) with the callback of `search_internal`
(index.rs:1952–1956). -/
def start (pad : D) (ix : Index V A D) (s : St Nat D) : Res (St Nat D) := do
  let ds ← pqDistances ix [ix.medoid]
  Res.ofOption (ds.foldlM (fun s x => addStart pad ⟨fun _ => [], ix.quant⟩ s x.1) s)

/-- The traversal of `Knn::search` (search/knn_search.rs:153–166) on the disk accessor:
`starting_points` is the medoid (disk_provider.rs:792–795). -/
def traverse (pad : D) (ix : Index V A D) (l beam fuel : Nat) (a : Acc V A D) :
    Res (Acc V A D × St Nat D) := do
  let s ← start pad ix (St.create l 1)
  loop pad ix beam fuel a s

/-! ## Output -/

/-- `SearchOutput` (disk_provider.rs:330–333). -/
structure Out (V A D : Type) where
  buf : BufA Nat D A
  vecs : Option (List (Option V))

/-- `SearchOutput::new` (disk_provider.rs:336–356). -/
def Out.new (ids : List Nat) (distances : List D) (assoc : List A) (vecs : Option (List (Option V))) :
    Res (Out V A D) :=
  if vecs.any fun v => decide (ids.length ≠ v.length) then .err
  else match BufA.new ids distances assoc with
    | some b => .ok ⟨b, vecs⟩
    | none => .panic

/-- An output item: id, associated data, stored vector if asked for, distance. -/
structure Item (V A D : Type) where
  id : Nat
  data : A
  vec : Option V
  dist : D

/-- `push` (disk_provider.rs:365–380): whether the buffer is full, and the buffer. -/
def Out.push (o : Out V A D) (x : Item V A D) : Res (BufferState × Out V A D) :=
  let position := o.buf.position
  if position = o.buf.ids.length then .ok (.full, o)
  else
    match o.buf.push (x.id, x.dist, x.data) with
    | none => .panic
    | some (st, b) =>
      match o.vecs with
      | none => .ok (st, ⟨b, none⟩)
      | some vs => if position < vs.length then .ok (st, ⟨b, some (vs.set position x.vec)⟩) else .panic

/-- The loop of `extend` (disk_provider.rs:386–397). -/
def Out.extend (o : Out V A D) : List (Item V A D) → Res (Out V A D)
  | [] => .ok o
  | x :: xs => do
    let r ← o.push x
    if r.1 = .full then .ok r.2 else Out.extend r.2 xs

/-- The vector of a result (disk_provider.rs:427–436): from the cache if one is kept there, else from the
loaded batch. -/
def takeVector (ix : Index V A D) (a : Acc V A D) (id : Nat) : Res V :=
  match (a.cache id).bind fun e => e.2.2 with
  | some v => .ok v
  | none => (getVertex ix a id).bind fun v => .ok v.vec

/-- The second half of `extend_output` (disk_provider.rs:421–444), with stored vectors. -/
def extendWithVectors (ix : Index V A D) (a : Acc V A D) (o : Out V A D) (count : Nat) :
    List (Nat × A × D) → Res (Nat × Out V A D)
  | [] => .ok (count, o)
  | x :: xs =>
    if o.buf.ids.length - o.buf.position = 0 then .ok (count, o)
    else do
      let v ← takeVector ix a x.1
      let r ← o.push ⟨x.1, x.2.1, some v, x.2.2⟩
      if r.1 = .full then .ok (count + 1, r.2)
      else extendWithVectors ix { a with cache := cacheSet a.cache x.1 none } r.2 (count + 1) xs

/-- `extend_output` (disk_provider.rs:400–445). -/
def extendOutput (ix : Index V A D) (a : Acc V A D) (reranked : List (Nat × A × D)) (o : Out V A D) :
    Res (Nat × Out V A D) :=
  if !a.cacheVecs then do
    let o' ← o.extend (reranked.map fun x => ⟨x.1, x.2.1, none, x.2.2⟩)
    pure (o'.buf.position - o.buf.position, o')
  else extendWithVectors ix a o 0 reranked

/-! ## Post-processing -/

/-- The loop over the ids without cached distance (disk_provider.rs:498–503). -/
def rerankUncached (ix : Index V A D) (a : Acc V A D) : List Nat → Res (List (Nat × A × D))
  | [] => .ok []
  | n :: ns => do
    let v ← getVertex ix a n
    let rest ← rerankUncached ix a ns
    pure ((n, v.assoc, ix.exact v.vec) :: rest)

/-- Loading the ids without cached distance, if there are any (disk_provider.rs:496–497). -/
def loadUncached (ix : Index V A D) (a : Acc V A D) (ids : List Nat) : Res (Acc V A D) :=
  if ids = [] then .ok a else ensureVertexLoaded ix a ids

/-- `RerankAndFilter::post_process` (disk_provider.rs:458–512); a filter that accepts everything is
`PostprocessStrategy::AcceptAll`. -/
def rerank (srt : List (Nat × A × D) → List (Nat × A × D)) (ix : Index V A D) (f : Nat → Bool)
    (a : Acc V A D) (cands : List Nat) (o : Out V A D) : Res (Acc V A D × Nat × Out V A D) := do
  let ids := cands.filter f
  let cached := ids.filterMap fun n => (a.cache n).map fun e => (n, e.2.1, e.1)
  let uncached := ids.filter fun n => (a.cache n).isNone
  let a ← loadUncached ix a uncached
  let more ← rerankUncached ix a uncached
  let r ← extendOutput ix a (srt (cached ++ more)) o
  pure (a, r.1, r.2)

/-- The loop over the rows (disk_provider.rs:563–577). -/
def fetch (ix : Index V A D) (a : Acc V A D) : List Nat → Res (List (Nat × Vertex V A))
  | [] => .ok []
  | n :: ns => do
    let v ← getVertex ix a n
    let rest ← fetch ix a ns
    pure ((n, v) :: rest)

/-- `DeterminantDiversityAndFilter::post_process` (disk_provider.rs:525–595); `sel` is
`determinant_diversity` on the rows with their distances, returning row numbers. Indexing outside the
rows panics. -/
def diversify (sel : List (V × D) → Res (List Nat)) (ix : Index V A D) (f : Nat → Bool)
    (a : Acc V A D) (cands : List Nat) (o : Out V A D) : Res (Acc V A D × Nat × Out V A D) :=
  let ids := cands.filter f
  if ids = [] then .ok (a, 0, o)
  else do
    let a ← ensureVertexLoaded ix a ids
    let vs ← fetch ix a ids
    let order ← sel (vs.map fun x => (x.2.vec, ix.exact x.2.vec))
    let reranked ← Res.ofOption (order.mapM fun i => vs[i]?.map fun x => (x.1, x.2.assoc, ix.exact x.2.vec))
    let r ← extendOutput ix a reranked o
    pure (a, r.1, r.2)

/-! ## Flat scan -/

/-- The loop of `flat_search` (disk_provider.rs:1138–1148) over the ids still to scan. -/
def scan (pad : D) (ix : Index V A D) : Nat → List Nat → Queue Nat D → Nat → Res (Queue Nat D × Nat)
  | 0, _, _, _ => .panic
  | fuel + 1, ids, best, cmps =>
    let buffer := ids.take ix.maxVectors
    if buffer = [] then .ok (best, cmps)
    else do
      let ds ← pqDistances ix buffer
      let best ← Res.ofOption (ds.foldlM (fun q x => Queue.insert pad q x.1 x.2) best)
      scan pad ix fuel (ids.drop ix.maxVectors) best (cmps + buffer.length)

/-- Statistics of a search: `cmps`, `hops`, `result_count`, and `total_io_operations`. -/
structure Stats where
  cmps : Nat
  hops : Nat
  resultCount : Nat
  io : Nat
deriving DecidableEq

/-- `flat_search` (disk_provider.rs:1097–1163). The allowance is the number of points plus one. -/
def flatSearch (pad : D) (srt : List (Nat × A × D) → List (Nat × A × D)) (ix : Index V A D)
    (filter : Nat → Bool) (l : Nat) (a : Acc V A D) (o : Out V A D) :
    Res (Acc V A D × Stats × Out V A D) :=
  if ix.maxVectors = 0 then .err
  else do
    let ids := (List.range ix.numPoints).filter filter
    let r ← scan pad ix (ix.numPoints + 1) ids (Queue.new l) 0
    let p ← rerank srt ix (fun _ => true) a (r.1.iter.map (·.1)) o
    pure (p.1, ⟨r.2, 0, p.2.1, p.1.io⟩, p.2.2)

/-! ## The searcher -/

/-- `SearchMode` (search_mode.rs:20–60) without the inline filter. -/
inductive Mode (V A D : Type) where
  | flat (filter : Nat → Bool)
  | graph (filter : Nat → Bool)
  | diverse (filter : Nat → Bool) (sel : List (V × D) → Res (List Nat))

/-- `Knn::new` (search/knn_search.rs:82–95): list size and beam width. -/
def knnNew (l : Nat) (beam : Option Nat) : Res (Nat × Nat) :=
  if l = 0 then .err
  else match beam with
    | none => .ok (l, 1)
    | some 0 => .err
    | some b => .ok (l, b)

/-- The match on the mode in `search_internal_impl` (disk_provider.rs:1385–1455). -/
def runMode (pad : D) (srt : List (Nat × A × D) → List (Nat × A × D)) (fuel : Nat) (ix : Index V A D)
    (pooled : Acc V A D) (cacheVecs : Bool) (l : Nat) (beam : Option Nat) (mode : Mode V A D)
    (o : Out V A D) : Res (Acc V A D × Stats × Out V A D) :=
  match mode with
  | .flat filter => flatSearch pad srt ix filter l (Acc.new pooled cacheVecs) o
  | .graph filter => do
    let p ← knnNew l beam
    let t ← traverse pad ix p.1 p.2 fuel (Acc.new pooled cacheVecs)
    let r ← rerank srt ix filter t.1 (t.2.best.iter.map (·.1)) o
    pure (r.1, ⟨t.2.cmps, t.2.hops, r.2.1, r.1.io⟩, r.2.2)
  | .diverse filter sel => do
    let p ← knnNew l beam
    let t ← traverse pad ix p.1 p.2 fuel (Acc.new pooled cacheVecs)
    let r ← diversify sel ix filter t.1 (t.2.best.iter.map (·.1)) o
    pure (r.1, ⟨t.2.cmps, t.2.hops, r.2.1, r.1.io⟩, r.2.2)

/-- `search_internal_impl` (disk_provider.rs:1342–1475) on buffers of `k` places, holding `zero` and
`dflt`. The answer keeps the accessor's log of reads. -/
def searchImpl (pad zero : D) (dflt : A) (srt : List (Nat × A × D) → List (Nat × A × D)) (fuel : Nat)
    (ix : Index V A D) (pooled : Acc V A D) (k l : Nat) (beam : Option Nat) (withVecs : Bool)
    (mode : Mode V A D) : Res (Acc V A D × Stats × Out V A D) :=
  if l < k then .err
  else do
    let o ← Out.new (List.replicate k 0) (List.replicate k zero) (List.replicate k dflt)
      (if withVecs then some (List.replicate k none) else none)
    runMode pad srt fuel ix pooled withVecs l beam mode o

/-- `search` (disk_provider.rs:1203–1252): all `k` places of the buffers, and the statistics. -/
def search (pad zero : D) (dflt : A) (srt : List (Nat × A × D) → List (Nat × A × D)) (fuel : Nat)
    (ix : Index V A D) (pooled : Acc V A D) (k l : Nat) (beam : Option Nat) (mode : Mode V A D) :
    Res (List (Nat × D × A) × Stats) := do
  let r ← searchImpl pad zero dflt srt fuel ix pooled k l beam false mode
  let b := r.2.2.buf
  pure ((b.ids.zip b.distances).zip b.assoc |>.map fun x => (x.1.1, x.1.2, x.2), r.2.1)

/-- The conversion of one item of `search_with_indexed_vectors` (disk_provider.rs:1291–1310): a missing
vector is an error. -/
def toResult (x : ((Nat × D) × A) × Option V) : Res (Nat × D × A × V) :=
  match x.2 with
  | some v => .ok (x.1.1.1, x.1.1.2, x.1.2, v)
  | none => .err

/-- Collecting results into a result: the first error wins. -/
def collect {α : Type} : List (Res α) → Res (List α)
  | [] => .ok []
  | x :: xs => do
    let a ← x
    let as ← collect xs
    pure (a :: as)

/-- `search_with_indexed_vectors` (disk_provider.rs:1258–1313). -/
def searchWithVectors (pad zero : D) (dflt : A) (srt : List (Nat × A × D) → List (Nat × A × D))
    (fuel : Nat) (ix : Index V A D) (pooled : Acc V A D) (k l : Nat) (beam : Option Nat)
    (mode : Mode V A D) : Res (List (Nat × D × A × V) × Stats) := do
  let r ← searchImpl pad zero dflt srt fuel ix pooled k l beam true mode
  let b := r.2.2.buf
  let rows := ((b.ids.zip b.distances).zip b.assoc).zip (r.2.2.vecs.getD [])
  let results ← collect ((rows.take r.2.1.resultCount).map toResult)
  pure (results, r.2.1)

end Verif.DiskSearch
