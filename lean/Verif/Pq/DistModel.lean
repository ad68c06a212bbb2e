import Verif.Pq.EncodeModel
import Verif.Vec.SimdModel

/-! # Product quantization: distances to and between codes

`diskann-providers/src/model/pq/fixed_chunk_pq_table.rs`, `diskann-providers/src/model/pq/distance/{l2,innerproduct,cosine,
dynamic,multi}.rs` and `diskann-disk/src/search/pq/quantizer_preprocess.rs`.

A byte of a code is a number. A read outside of a slice and a failed assertion are `none`; `Option` inside is an error that
the function returns. Release builds: `debug_assert` is not modelled. Elements of queries and pivots are finite, from an
ordered field; the disk search tables are the `Fl` values of `Verif.Pq.EncodeModel`. -/

namespace Verif.Pq

open Verif.Vec

/-! ## Tables -/

/-- `FixedChunkPQTable::new`, `fixed_chunk_pq_table.rs` 136-146. A dimension of zero divides by zero; `some none` is an error. -/
def pqTableNew {K : Type} (dim : Nat) (table : List K) (offsets : List Nat) : Option (Option (Basic K)) :=
  if dim = 0 then none
  else
    let nrows := table.length / dim
    if table.length ≠ nrows * dim then some none
    else
      match Offsets.new offsets with
      | .error _ => some none
      | .ok o => some (Basic.new ⟨table, nrows, dim⟩ o)

/-- `TryFrom<BasicTable>`, 433-447. -/
def pqTableFrom {K : Type} (t : Basic K) : Option (Basic K) := if t.pivots.nrows > 256 then none else some t

section Direct

variable {K : Type} [Field K] [LinearOrder K] {A : Type}

/-- The loop body of `direct_distance_impl`, 50-56: running start of the chunk and state of the resumable computation. -/
def directStep (S : Schema K K A K) (table : List K) (offsets : List Nat) (dim : Nat) (query : List K) (base : List Nat)
    (s : Nat × A) (chunk : Nat) : Option (Nat × A) := do
  let stop ← offsets[chunk + 1]?
  let q ← slice query s.1 stop
  let offset ← base[chunk]?
  let c ← slice table (dim * offset + s.1) (dim * offset + stop)
  match ← simdOp (S.resumable s.2) q c with
  | .error _ => none
  | .ok a => some (stop, a)

/-- `direct_distance_impl`, 35-58. -/
def directDistance (S : Schema K K A K) (table : List K) (offsets : List Nat) (dim : Nat) (query : List K)
    (base : List Nat) : Option K := do
  let start ← offsets[0]?
  let s ← (List.range (offsets.length - 1)).foldlM (directStep S table offsets dim query base) (start, S.init)
  some (S.reduce s.2)

/-- `l2_distance`, 223-231. -/
def Basic.l2Distance (arch : Quant.Arch) (t : Basic K) (query : List K) (base : List Nat) : Option K :=
  directDistance (l2Float arch .f32) t.pivots.data t.offsets.offsets t.pivots.ncols query base

/-- `cosine_distance`, 236-246. -/
def Basic.cosineDistance (sqrt : K → K) (arch : Quant.Arch) (t : Basic K) (query : List K) (base : List Nat) : Option K := do
  let v ← directDistance (cosFloat sqrt arch .f32) t.pivots.data t.offsets.offsets t.pivots.ncols query base
  some (1 - v)

/-- `cosine_normalized_distance`, 251-253. -/
def Basic.cosineNormalizedDistance (sqrt : K → K) (arch : Quant.Arch) (t : Basic K) (query : List K) (base : List Nat) : Option K :=
  t.cosineDistance sqrt arch query base

/-- `inner_product_raw`, 258-266. -/
def Basic.innerProductRaw (arch : Quant.Arch) (t : Basic K) (query : List K) (base : List Nat) : Option K :=
  directDistance (ipFloat arch .f32) t.pivots.data t.offsets.offsets t.pivots.ncols query base

/-- `inner_product`, 278-281. -/
def Basic.innerProduct (arch : Quant.Arch) (t : Basic K) (query : List K) (base : List Nat) : Option K := do
  let res ← t.innerProductRaw arch query base
  some (-res)

/-- The loop body of `self_distance`, 306-322. -/
def selfStep (S : Schema K K A K) (table : List K) (offsets : List Nat) (dim : Nat) (left right : List Nat)
    (s : Nat × A) (chunk : Nat) : Option (Nat × A) := do
  let stop ← offsets[chunk + 1]?
  let lo ← left[chunk]?
  let ro ← right[chunk]?
  let l ← slice table (dim * lo + s.1) (dim * lo + stop)
  let r ← slice table (dim * ro + s.1) (dim * ro + stop)
  match ← simdOp (S.resumable s.2) l r with
  | .error _ => none
  | .ok a => some (stop, a)

/-- `self_distance`, 285-325. -/
def Basic.selfDistance (S : Schema K K A K) (t : Basic K) (left right : List Nat) : Option K :=
  if left.length ≠ t.offsets.len then none
  else if right.length ≠ t.offsets.len then none
  else do
    let start ← t.offsets.offsets[0]?
    let s ← (List.range t.offsets.len).foldlM
      (selfStep S t.pivots.data t.offsets.offsets t.pivots.ncols left right) (start, S.init)
    some (S.reduce s.2)

/-- `qq_l2_distance`, 333-335. -/
def Basic.qqL2 (arch : Quant.Arch) (t : Basic K) (left right : List Nat) : Option K :=
  t.selfDistance (l2Float arch .f32) left right

/-- `qq_ip_distance`, 346-348. -/
def Basic.qqIp (arch : Quant.Arch) (t : Basic K) (left right : List Nat) : Option K := do
  let v ← t.selfDistance (ipFloat arch .f32) left right
  some (-v)

/-- `qq_cosine_distance`, 360-364. -/
def Basic.qqCosine (sqrt : K → K) (arch : Quant.Arch) (t : Basic K) (left right : List Nat) : Option K := do
  let v ← t.selfDistance (cosFloat sqrt arch .f32) left right
  some (1 - v)

end Direct

/-- Overwriting a part of a slice. -/
def writeAt {T : Type} (s : List T) (a : Nat) (v : List T) : List T := s.take a ++ v ++ s.drop (a + v.length)

/-- The closure of `inflate_vector_into`, 392-399. -/
def inflateStep {K : Type} (t : Basic K) (base : List Nat) (out : List K) (i : Nat) : Option (List K) := do
  let b ← base[i]?
  let start ← t.offsets.offsets[i]?
  let stop ← t.offsets.offsets[i + 1]?
  let _ ← slice out start stop
  let pivot ← slice t.pivots.data (t.pivots.ncols * b + start) (t.pivots.ncols * b + stop)
  some (writeAt out start pivot)

/-- `inflate_vector_into`, 385-400. -/
def Basic.inflateInto {K : Type} (t : Basic K) (base : List Nat) (out : List K) : Option (List K) :=
  if base.length ≠ t.offsets.len then none
  else if out.length ≠ t.pivots.ncols then none
  else (List.range base.length).foldlM (inflateStep t base) out

/-- `inflate_vector`, 377-381. -/
def Basic.inflate {K : Type} [Zero K] (t : Basic K) (base : List Nat) : Option (List K) :=
  t.inflateInto base (List.replicate t.pivots.ncols 0)

/-! ## Lookup tables -/

section Lookup

variable {K : Type} [Field K] [LinearOrder K]

/-- `scratch[k] = v`. -/
def storeAt {T : Type} (s : List T) (k : Nat) (v : T) : Option (List T) := if k < s.length then some (s.set k v) else none

/-- The inner loop body of `populate_chunk_distances_impl`, 174-183. -/
def populateStep (sqrt : K → K) (arch : Quant.Arch) (f : Functor') (t : Basic K) (query : List K) (centroid : Nat)
    (scratch : List K) (chunk : Nat) : Option (List K) := do
  let tableStart := t.pivots.ncols * centroid
  let start ← t.offsets.offsets[chunk]?
  let stop ← t.offsets.offsets[chunk + 1]?
  let q ← slice query start stop
  let c ← slice t.pivots.data (tableStart + start) (tableStart + stop)
  match ← evalFloat sqrt arch .f32 f .f32 q c with
  | .error _ => none
  | .ok d => storeAt scratch (chunk * t.pivots.nrows + centroid) d

/-- `populate_chunk_distances_impl`, 152-187; `populate_chunk_distances`, 194-203, is the squared L2 one and
`populate_chunk_inner_products`, 209-218, the inner product one. -/
def Basic.populate (sqrt : K → K) (arch : Quant.Arch) (f : Functor') (t : Basic K) (query : List K) (scratch : List K) :
    Option (Option (List K)) :=
  if scratch.length < t.offsets.len * t.pivots.nrows then some none
  else do
    let s ← (List.range t.pivots.nrows).foldlM (fun s centroid =>
      (List.range t.offsets.len).foldlM (populateStep sqrt arch f t query centroid) s) scratch
    some (some s)

end Lookup

section Batch

variable {R : Type} [Zero R] [Add R]

/-- `slice.chunks(n)`, for positive `n`. -/
def chunksOf {T : Type} (n : Nat) (l : List T) : List (List T) :=
  (List.range ((l.length + n - 1) / n)).map (fun i => (l.drop (i * n)).take n)

/-- `pq_dist_lookup_single`, 82-98. `chunks(0)` panics. -/
def lookupSingle (code : List Nat) (table : List R) (numCenters : Nat) : Option R :=
  if numCenters = 0 then none
  else (code.zip (chunksOf numCenters table)).foldlM (fun accum p => do
    let d ← p.2[p.1]?
    some (accum + d)) 0

/-- `MatrixBase::get_unchecked`: undefined outside of the matrix. -/
def Mat.get {T : Type} (m : Mat T) (row col : Nat) : Option T :=
  if row < m.nrows ∧ col < m.ncols then m.data[row * m.ncols + col]? else none

/-- The closure of `add_distance_for_a_tile`, 595-612, for one point. -/
def tilePoint (tileIdx tileSize curTileSize : Nat) (coordinates : Mat Nat) (distances : Mat R) (point : Nat) (d : R) :
    Option R :=
  (List.range curTileSize).foldlM (fun d offset => do
    let chunk := tileIdx * tileSize + offset
    let centroid ← coordinates.get point chunk
    let row ← distances.row chunk
    let v ← row[centroid]?
    some (d + v)) d

/-- `add_distance_for_a_tile`, 587-613. -/
def addTile (tileIdx tileSize curTileSize : Nat) (dists : List R) (coordinates : Mat Nat) (distances : Mat R) :
    Option (List R) :=
  (List.range dists.length).mapM (fun point => do
    let d ← dists[point]?
    tilePoint tileIdx tileSize curTileSize coordinates distances point d)

/-- `pq_dist_lookup`, 484-564. -/
def pqDistLookup (coords : List Nat) (nPts nchunks : Nat) (table out : List R) : Option (Option (List R)) :=
  if coords.length ≠ nPts * nchunks then some none
  else if table.length < 256 * nchunks then none
  else if out.length < nPts then some none
  else do
    let coordinates : Mat Nat := ⟨coords, nPts, nchunks⟩
    let distances : Mat R := ⟨table.take (256 * nchunks), nchunks, 256⟩
    let fullTiles := nchunks / 16
    let dists ← (List.range fullTiles).foldlM (fun dists tile => addTile tile 16 16 dists coordinates distances)
      (List.replicate nPts (0 : R))
    let remainder := nchunks - 16 * fullTiles
    let dists ← if remainder ≠ 0 then addTile fullTiles 16 remainder dists coordinates distances else some dists
    some (some (dists ++ out.drop nPts))

/-- The closure of `aggregate_coords`, 637-643. -/
def aggregateStep (ids : List Nat) (allCoords : List Nat) (nchunks : Nat) (scratch : List Nat) (index : Nat) :
    Option (List Nat) := do
  let id ← ids[index]?
  let code ← slice allCoords (id * nchunks) (id * nchunks + nchunks)
  some (writeAt scratch (index * nchunks) code)

/-- `aggregate_coords`, 617-646. `chunks_mut(0)` panics. -/
def aggregateCoords (ids : List Nat) (allCoords : List Nat) (nchunks : Nat) (scratch : List Nat) :
    Option (Option (List Nat)) :=
  if scratch.length < ids.length * nchunks then some none
  else if nchunks = 0 then none
  else do
    let s ← (List.range ids.length).foldlM (aggregateStep ids allCoords nchunks) scratch
    some (some s)

/-- `compute_pq_distance`, 651-670: the two scratch buffers afterwards. -/
def computePqDistance (ids : List Nat) (nchunks : Nat) (table : List R) (pqData coordScratch : List Nat)
    (distScratch : List R) : Option (Option (List Nat × List R)) := do
  match ← aggregateCoords ids pqData nchunks coordScratch with
  | none => some none
  | some coordScratch =>
    let coords ← slice coordScratch 0 (ids.length * nchunks)
    match ← pqDistLookup coords ids.length nchunks table distScratch with
    | none => some none
    | some out => some (some (coordScratch, out))

/-- `compute_pq_distance_for_pq_coordinates`, 673-689. -/
def computePqDistanceForCode (code : List Nat) (nchunks : Nat) (table distScratch : List R) : Option (Option (List R)) :=
  pqDistLookup code 1 nchunks table distScratch

end Batch

/-! ## Distance computers -/

section Computers

variable {K : Type} [Field K] [LinearOrder K]

/-- `QueryComputer`, `dynamic.rs` 17-22. Both lookup tables keep the values, the number of centers and the parent table. -/
inductive QueryComputer (K : Type)
  | l2 (table : List K) (numCenters : Nat) (parent : Basic K)
  | ip (table : List K) (numCenters : Nat) (parent : Basic K)
  | cosine (query : List K) (parent : Basic K)

/-- `TableL2::new`, `l2.rs` 42-77, and `TableIP::new`, `innerproduct.rs` 42-77: `stale` is the contents of the (possibly
pooled) vector, of the right size. -/
def lookupTableNew (sqrt : K → K) (arch : Quant.Arch) (f : Functor') (t : Basic K) (query stale : List K) :
    Option (Option (List K)) :=
  t.populate sqrt arch f query ((stale ++ List.replicate (t.offsets.len * t.pivots.nrows) 0).take
    (t.offsets.len * t.pivots.nrows))

/-- `QueryComputer::new`, `dynamic.rs` 64-86. -/
def QueryComputer.new (sqrt : K → K) (arch : Quant.Arch) (t : Basic K) (m : Metric) (query stale : List K) :
    Option (Option (QueryComputer K)) :=
  if query.length ≠ t.pivots.ncols then some none
  else
    match m with
    | .l2 => do
      let r ← lookupTableNew sqrt arch .squaredL2 t query stale
      some (r.map (fun s => .l2 s t.pivots.nrows t))
    | .innerProduct => do
      let r ← lookupTableNew sqrt arch .innerProduct t query stale
      some (r.map (fun s => .ip s t.pivots.nrows t))
    | .cosine => some (some (.cosine query t))
    | .cosineNormalized => do
      let r ← lookupTableNew sqrt arch .squaredL2 t query stale
      some (r.map (fun s => .l2 s t.pivots.nrows t))

/-- `evaluate_similarity`, `dynamic.rs` 88-98, with `evaluate` of `l2.rs` 86-95, `innerproduct.rs` 86-95 and `cosine.rs`
50-61. -/
def QueryComputer.evaluate (sqrt : K → K) (arch : Quant.Arch) (c : QueryComputer K) (code : List Nat) : Option K :=
  match c with
  | .l2 table n parent => if parent.offsets.len ≠ code.length then none else lookupSingle code table n
  | .ip table n parent => if parent.offsets.len ≠ code.length then none else lookupSingle code table n
  | .cosine query parent =>
    if parent.offsets.len ≠ code.length then none else parent.cosineDistance sqrt arch query code

/-- `VTable::new(distance).distance_fn`, 117-123. -/
def distanceFn (sqrt : K → K) (arch : Quant.Arch) (m : Metric) (t : Basic K) (query : List K) (base : List Nat) : Option K :=
  match m with
  | .l2 => t.l2Distance arch query base
  | .cosine => t.cosineDistance sqrt arch query base
  | .innerProduct => t.innerProduct arch query base
  | .cosineNormalized => t.cosineNormalizedDistance sqrt arch query base

/-- `VTable::new(distance).distance_fn_qq`, 125-130. -/
def distanceFnQq (sqrt : K → K) (arch : Quant.Arch) (m : Metric) (t : Basic K) (left right : List Nat) : Option K :=
  match m with
  | .l2 => t.qqL2 arch left right
  | .cosine => t.qqCosine sqrt arch left right
  | .innerProduct => t.qqIp arch left right
  | .cosineNormalized => t.qqCosine sqrt arch left right

/-- `DistanceComputer` on a full precision vector and a code, 178-198. -/
def distanceComputer (sqrt : K → K) (arch : Quant.Arch) (m : Metric) (t : Basic K) (fp : List K) (q : List Nat) : Option K :=
  if fp.length ≠ t.pivots.ncols then none
  else if q.length ≠ t.offsets.len then none
  else distanceFn sqrt arch m t fp q

/-- `DistanceComputer` on two codes, 200-209. -/
def distanceComputerQq (sqrt : K → K) (arch : Quant.Arch) (m : Metric) (t : Basic K) (q0 q1 : List Nat) : Option K :=
  if q0.length ≠ t.offsets.len then none
  else if q1.length ≠ t.offsets.len then none
  else distanceFnQq sqrt arch m t q0 q1

/-! ## Two schemas -/

variable {V : Type} [DecidableEq V]

/-- `VersionedPQVector`, `multi.rs` 18-22. -/
structure Versioned (V : Type) where
  data : List Nat
  version : V

/-- `MultiTable`, 85-104. -/
inductive MultiTable (K V : Type)
  | one (table : Basic K) (version : V)
  | two (new old : Basic K) (newVersion oldVersion : V)

/-- `MultiTable::two`, 122-139. -/
def MultiTable.mkTwo (new old : Basic K) (newVersion oldVersion : V) : Option (MultiTable K V) :=
  if newVersion = oldVersion then none else some (.two new old newVersion oldVersion)

/-- `MultiDistanceComputer` on a full precision vector and a code, 222-254. The inner `none` is the `None` of an unknown
version. -/
def multiDistance (sqrt : K → K) (arch : Quant.Arch) (m : Metric) (t : MultiTable K V) (x : List K) (y : Versioned V) :
    Option (Option K) :=
  match t with
  | .one table version =>
    if version ≠ y.version then some none else (distanceFn sqrt arch m table x y.data).map some
  | .two new old newVersion oldVersion =>
    if oldVersion = y.version then (distanceFn sqrt arch m old x y.data).map some
    else if newVersion = y.version then (distanceFn sqrt arch m new x y.data).map some
    else some none

/-- `MultiDistanceComputer` on two codes, 279-333. -/
def multiDistanceQq (sqrt : K → K) (arch : Quant.Arch) (m : Metric) (t : MultiTable K V) (x y : Versioned V) :
    Option (Option K) :=
  match t with
  | .one table version =>
    if x.version ≠ version ∨ y.version ≠ version then some none
    else (distanceFnQq sqrt arch m table x.data y.data).map some
  | .two new old newVersion oldVersion =>
    let xNew : Bool := x.version = newVersion
    let xOld : Bool := x.version = oldVersion
    let yNew : Bool := y.version = newVersion
    let yOld : Bool := y.version = oldVersion
    if xOld then
      if yOld then (distanceFnQq sqrt arch m old x.data y.data).map some
      else if yNew then do
        let xFull ← old.inflate x.data
        (distanceFn sqrt arch m new xFull y.data).map some
      else some none
    else if xNew then
      if yOld then do
        let yFull ← old.inflate y.data
        (distanceFn sqrt arch m new yFull x.data).map some
      else if yNew then (distanceFnQq sqrt arch m new x.data y.data).map some
      else some none
    else some none

/-- `MultiQueryComputer`, 343-359. -/
inductive MultiQuery (K V : Type)
  | one (computer : QueryComputer K) (version : V)
  | two (new old : QueryComputer K) (newVersion oldVersion : V)

/-- `MultiQueryComputer::new`, 366-388. -/
def MultiQuery.new (sqrt : K → K) (arch : Quant.Arch) (t : MultiTable K V) (m : Metric) (query : List K) :
    Option (Option (MultiQuery K V)) :=
  match t with
  | .one table version => do
    match ← QueryComputer.new sqrt arch table m query [] with
    | none => some none
    | some c => some (some (.one c version))
  | .two new old newVersion oldVersion => do
    match ← QueryComputer.new sqrt arch new m query [] with
    | none => some none
    | some cn =>
      match ← QueryComputer.new sqrt arch old m query [] with
      | none => some none
      | some co => some (some (.two cn co newVersion oldVersion))

/-- `MultiQueryComputer::evaluate_similarity`, 417-442. -/
def MultiQuery.evaluate (sqrt : K → K) (arch : Quant.Arch) (c : MultiQuery K V) (x : Versioned V) : Option (Option K) :=
  match c with
  | .one computer version =>
    if version ≠ x.version then some none else (computer.evaluate sqrt arch x.data).map some
  | .two new old newVersion oldVersion =>
    if oldVersion = x.version then (old.evaluate sqrt arch x.data).map some
    else if newVersion = x.version then (new.evaluate sqrt arch x.data).map some
    else some none

/-! ## Disk search -/

/-- The match on the metric in `quantizer_preprocess`, `quantizer_preprocess.rs` 33-52. -/
def preprocessKind : Metric → Kernel
  | .innerProduct => .innerProduct
  | _ => .squaredL2

/-- `quantizer_preprocess`, `quantizer_preprocess.rs` 17-64, on a `PQScratch` with a distance table, a coordinate and a
distance buffer: the same buffers afterwards. -/
def quantizerPreprocess (t : Transposed K) (m : Metric) (ids pqData : List Nat) (query : List (Fl K))
    (tableScratch : List (Fl K)) (coordScratch : List Nat) (distScratch : List (Fl K)) :
    Option (Option (List (Fl K) × List Nat × List (Fl K))) := do
  let expected := t.ncenters * t.offsets.len
  let dst ← slice tableScratch 0 expected
  let rows ← t.processInto (preprocessKind m) query
    ⟨dst, t.offsets.len, t.ncenters⟩
  let tableScratch := rows.flatten ++ tableScratch.drop expected
  match ← computePqDistance ids t.offsets.len tableScratch pqData coordScratch distScratch with
  | none => some none
  | some (c, d) => some (some (tableScratch, c, d))

/-- `DiskAccessor::pq_distances`, `disk_provider.rs` 757-777: the pairs given to the callback. -/
def pqDistances {R : Type} [Zero R] [Add R] (ids : List Nat) (nchunks : Nat) (table : List R) (pqData coordScratch : List Nat)
    (distScratch : List R) : Option (Option (List (R × Nat))) := do
  match ← computePqDistance ids nchunks table pqData coordScratch distScratch with
  | none => some none
  | some (_, d) => do
    let l ← (List.range ids.length).mapM (fun i => do
      let dist ← d[i]?
      let id ← ids[i]?
      some (dist, id))
    some (some l)

end Computers

end Verif.Pq
