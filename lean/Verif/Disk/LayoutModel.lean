import Verif.Disk.HeaderModel
/-
Model of how the disk index file is written and how vertices are read back from it.

Source: /repo/diskann-disk/src/storage/disk_index_writer.rs (268-520),
        /repo/diskann-disk/src/search/provider/disk_sector_graph.rs,
        /repo/diskann-disk/src/search/provider/disk_vertex_provider.rs,
        /repo/diskann-disk/src/search/provider/disk_vertex_provider_factory.rs (54-75)

Simplifications
* The three input streams (dataset after its 8-byte header, graph file after its 24-byte header,
  associated data after its 8-byte header) are the remaining bytes of each stream: the dataset and the
  associated data are read through `CachedReader`, which C49 proves equivalent to direct reading.
* `vector_buf` and the associated data are kept as raw bytes: the code copies the bytes of the vector
  (`ptr::copy_nonoverlapping`) and decodes the associated data with `bincode::deserialize`, whose
  result depends only on those bytes.
* Errors and panics are both `none`: the theorems prove that neither happens.
* The aligned reader fills each request from the file at the requested offset (error past the end) and
  rejects a request whose offset or length is not a multiple of its alignment (aligned_read.rs 57-81).
* `u64`/`usize` arithmetic is on naturals; the theorems assume the header fields fit their types.
-/
namespace Verif.Disk

/-- What the writer needs to know about an index (fields of `DiskIndexWriterState`,
disk_index_writer.rs 29-53, plus the block size and whether an associated-data file was given).
`assocBytes = associated_data_length * size_of::<AssociatedDataType>()` (0 without a file). -/
structure Params where
  dims : Nat
  elemSize : Nat
  numPts : Nat
  maxDegree : Nat
  medoid : Nat
  frozenNum : Nat
  hasAssoc : Bool
  assocBytes : Nat
  blockSize : Nat

/-- `vector_size` (disk_index_writer.rs 418). -/
def Params.vecLen (p : Params) : Nat := p.dims * p.elemSize

/-- `state.node_len` (disk_index_writer.rs 420-422). -/
def Params.nodeLen (p : Params) : Nat := (p.maxDegree + 1) * 4 + p.vecLen + p.assocBytes

/-- `num_nodes_per_block` (disk_index_writer.rs 424); 0 if the node is larger than a block. -/
def Params.npb (p : Params) : Nat := p.blockSize / p.nodeLen

/-- `div_ceil`. -/
def divCeil (a b : Nat) : Nat := (a + b - 1) / b

/-- `num_blocks` (disk_index_writer.rs 436-442). -/
def Params.numBlocks (p : Params) : Nat :=
  if p.npb > 0 then divCeil p.numPts p.npb else p.numPts * divCeil p.nodeLen p.blockSize

/-- The remaining bytes of the three input streams. -/
structure Streams where
  data : List Byte
  graph : List Byte
  assoc : List Byte

/-- Sequential `read_exact` of `n` bytes from a stream. -/
def takeN (n : Nat) (s : List Byte) : Option (List Byte × List Byte) :=
  if n ≤ s.length then some (s.take n, s.drop n) else none

/-- `read_neighbors` (disk_index_writer.rs 268-319) into a buffer of `bufLen` bytes. -/
def readNeighbors (p : Params) (bufLen : Nat) (s : Streams) : Option (List Byte × Streams) := do
  let buf := List.replicate bufLen (0 : Byte)
  let (coords, data) ← takeN p.vecLen s.data
  let buf ← copyInto? buf 0 coords.length coords
  let (nb, graph) ← takeN 4 s.graph
  let n := leDecode nb
  let start := p.vecLen
  let nbrStart := start + 4
  let buf ← copyInto? buf start (start + 4) (leEncode 4 n)
  let nbrEnd := nbrStart + n * 4
  let (nbrs, graph) ← takeN (n * 4) graph
  let buf ← copyInto? buf nbrStart nbrEnd nbrs
  if p.hasAssoc then
    let lo ← sub? p.nodeLen p.assocBytes
    let (a, assoc) ← takeN p.assocBytes s.assoc
    let buf ← copyInto? buf lo p.nodeLen a
    some (buf, { s with data := data, graph := graph, assoc := assoc })
  else
    some (buf, { s with data := data, graph := graph })

/-- The inner loop `for sector_node_id in 0..num_nodes_per_block` (disk_index_writer.rs 470-485);
`k` is `sector_node_id`, the last argument the number of iterations left. -/
def fillBlock (p : Params) (s : Streams) (cur : Nat) (block : List Byte) (k : Nat) :
    Nat → Option (Streams × Nat × List Byte)
  | 0 => some (s, cur, block)
  | m + 1 =>
    if cur ≥ p.numPts then some (s, cur, block)
    else do
      let (node, s) ← readNeighbors p p.nodeLen s
      let lo := k * p.nodeLen
      let src ← slice? node 0 p.nodeLen
      let block ← copyInto? block lo (lo + p.nodeLen) src
      fillBlock p s (cur + 1) block (k + 1) m

/-- The outer loop `for sector in 0..num_blocks` (disk_index_writer.rs 464-489). -/
def writeSectors (p : Params) (s : Streams) (cur : Nat) (w : Writer) : Nat → Option Writer
  | 0 => some w
  | n + 1 => do
    let (s, cur, block) ← fillBlock p s cur (List.replicate p.blockSize 0) 0 p.npb
    let w ← w.write block
    writeSectors p s cur w n

/-- The loop over multi-sector nodes (disk_index_writer.rs 490-505). -/
def writeNodes (p : Params) (s : Streams) (w : Writer) : Nat → Option Writer
  | 0 => some w
  | n + 1 => do
    let (buf, s) ← readNeighbors p (divCeil p.nodeLen p.blockSize * p.blockSize) s
    let w ← w.write buf
    writeNodes p s w n

/-- The header written by `write_header` (disk_index_writer.rs 321-369). -/
def Params.header (p : Params) : Header where
  md :=
    { numPts := p.numPts, dims := p.dims, medoid := p.medoid, nodeLen := p.nodeLen,
      numNodesPerBlock := p.npb, frozenNum := p.frozenNum,
      frozenLoc := if p.frozenNum = 1 then p.medoid else 0,
      fileSize := (p.numBlocks + 1) * p.blockSize, assocLen := p.assocBytes }
  blockSize := p.blockSize
  major := 1
  minor := 0

/-- `DiskIndexWriter::new` (disk_index_writer.rs 96-116) accepts the block size. -/
def Params.accepted (p : Params) : Prop := Metadata.getSize ≤ p.blockSize

/-- `READ_WRITE_BLOCK_SIZE` (diskann-providers/src/utils/mod.rs 18). -/
def readWriteBlockSize : Nat := 64 * 1024 * 1024

/-- `create_disk_layout` (disk_index_writer.rs 404-527): the resulting file.  The header is written by
`save_bytes` (diskann-providers/src/utils/storage_utils.rs 59-72): two `u32`s, then the bytes, at
offset 0 of the re-opened file. -/
def createLayout (p : Params) (s : Streams) : Option (List Byte) := do
  let w ← Writer.new readWriteBlockSize
  let w ← w.write (List.replicate p.blockSize 0)
  let w ← if p.npb > 0 then writeSectors p s 0 w p.numBlocks else writeNodes p s w p.numPts
  let w ← w.flush
  let h := p.header.toBytes
  some (writeAt w.file 0 (leEncode 4 h.length ++ leEncode 4 1 ++ h))

/-! ### Reading -/

/-- `DiskSectorGraph` addressing fields (disk_sector_graph.rs 22-47). -/
structure SectorGraph where
  npb : Nat
  nodeLen : Nat
  nspn : Nat
  blockSize : Nat

/-- `DiskSectorGraph::new` (disk_sector_graph.rs 56-90). -/
def SectorGraph.new (h : Header) : SectorGraph :=
  let bs := if (h.major = 0 ∧ h.minor = 0) ∨ h.blockSize = 0 then 4096 else h.blockSize
  { npb := h.md.numNodesPerBlock, nodeLen := h.md.nodeLen,
    nspn := if h.md.numNodesPerBlock > 0 then 1 else divCeil h.md.nodeLen bs,
    blockSize := bs }

/-- `len_per_node`. -/
def SectorGraph.lenPerNode (g : SectorGraph) : Nat := g.nspn * g.blockSize

/-- `node_sector_index` (disk_sector_graph.rs 186-192). -/
def SectorGraph.sectorIndex (g : SectorGraph) (id : Nat) : Nat :=
  1 + if g.npb ≠ 0 then id / g.npb else id * g.nspn

/-- `get_node_offset` (disk_sector_graph.rs 174-182). -/
def SectorGraph.nodeOffset (g : SectorGraph) (id : Nat) : Nat :=
  if g.npb = 0 then 0 else id % g.npb * g.nodeLen

/-- `DiskVertexProvider` (disk_vertex_provider.rs 29-72). `loaded` is the map id → (vec_idx, idx),
latest entry first. -/
structure Provider where
  fpVecLen : Nat
  assocSize : Nat
  nodeLen : Nat
  graph : SectorGraph
  sectors : List Byte
  maxBatch : Nat
  curSector : Nat
  vecBuf : List Byte
  adj : List (List Nat)
  assoc : List (List Byte)
  loaded : List (Nat × (Nat × Nat))
  ioOps : Nat

/-- `DiskVertexProvider::new` (disk_vertex_provider.rs 209-231). -/
def Provider.new (h : Header) (elemSize maxBatch : Nat) : Provider :=
  let g := SectorGraph.new h
  { fpVecLen := h.md.dims * elemSize, assocSize := h.md.assocLen, nodeLen := h.md.nodeLen, graph := g,
    sectors := List.replicate (maxBatch * g.nspn * g.blockSize) 0, maxBatch := maxBatch,
    curSector := 0, vecBuf := List.replicate (maxBatch * (h.md.dims * elemSize)) 0,
    adj := [], assoc := [], loaded := [], ioOps := 0 }

/-- `clear_before_next_read` (disk_vertex_provider.rs 260-265). -/
def Provider.clear (v : Provider) : Provider :=
  { v with curSector := 0, loaded := [], adj := [], assoc := [] }

/-- `reconfigure` (disk_vertex_provider.rs 233-245, disk_sector_graph.rs 93-104). -/
def Provider.reconfigure (v : Provider) (n : Nat) : Provider :=
  if n > v.maxBatch then
    { v.clear with sectors := List.replicate (n * v.graph.nspn * v.graph.blockSize) 0,
                   vecBuf := List.replicate (n * v.fpVecLen) 0, maxBatch := n }
  else v

/-- The read requests of `read_graph`, one per sector: request `i` fills
`sectors_data[(cur+i)*len .. (cur+i+1)*len]` from file offset `sector * block_size`
(disk_sector_graph.rs 128-148). -/
def readSectors (file : List Byte) (align blockSize len : Nat) (buf : List Byte) (slot : Nat) :
    List Nat → Option (List Byte)
  | [] => some buf
  | sec :: secs =>
    let off := sec * blockSize
    if off % align ≠ 0 ∨ len % align ≠ 0 then none
    else do
      let (bytes, _) ← readExact file off len
      let buf ← copyInto? buf (slot * len) ((slot + 1) * len) bytes
      readSectors file align blockSize len buf (slot + 1) secs

/-- `load_vertices` (disk_vertex_provider.rs 117-122) with `fetch_nodes` (247-258) and `read_graph`
(disk_sector_graph.rs 113-152). -/
def Provider.load (v : Provider) (file : List Byte) (align : Nat) (ids : List Nat) : Option Provider := do
  let v := v.clear.reconfigure ids.length
  let secs := ids.map v.graph.sectorIndex
  let room ← sub? v.maxBatch v.curSector
  if secs.length > room then none
  else if v.graph.lenPerNode = 0 then none
  else
    let buf ← readSectors file align v.graph.blockSize v.graph.lenPerNode v.sectors v.curSector secs
    some { v with sectors := buf, curSector := v.curSector + secs.length, ioOps := v.ioOps + ids.length }

/-- `node_disk_buf` (disk_sector_graph.rs 158-172). -/
def Provider.nodeBuf (v : Provider) (idx id : Nat) : Option (List Byte) := do
  let len := v.graph.lenPerNode
  let sec ← slice? v.sectors (idx * len) ((idx + 1) * len)
  slice? sec (v.graph.nodeOffset id) (v.graph.nodeOffset id + v.graph.nodeLen)

/-- A byte buffer read as little-endian `u32`s (`bytemuck::must_cast_slice_mut` on a little-endian
machine). -/
def leU32s : Nat → List Byte → List Nat
  | 0, _ => []
  | n + 1, bs => leDecode (bs.take 4) :: leU32s n (bs.drop 4)

/-- `process_loaded_node` (disk_vertex_provider.rs 124-187). -/
def Provider.process (v : Provider) (id idx : Nat) : Option Provider := do
  let node ← v.nodeBuf idx id
  let fp ← slice? node 0 v.fpVecLen
  let vecBuf ← copyInto? v.vecBuf (idx * v.fpVecLen) (idx * v.fpVecLen + v.fpVecLen) fp
  let nd ← slice? node v.fpVecLen node.length
  let nb ← slice? nd 0 4
  let n := leDecode nb
  let nbrs ← slice? nd 4 (4 + n * 4)
  let dataEnd ← sub? v.nodeLen v.fpVecLen
  let lo ← sub? dataEnd v.assocSize
  let a ← slice? nd lo dataEnd
  -- `self.loaded_nodes.insert(id, Offsets { vec_idx: loaded_nodes.len(), idx })`: a hash-map insert
  some { v with vecBuf := vecBuf, adj := v.adj ++ [leU32s n nbrs], assoc := v.assoc ++ [a],
                loaded := (id, (v.loaded.length, idx)) :: v.loaded.filter (·.1 ≠ id) }

/-- `get_vector` (disk_vertex_provider.rs 77-89): inner `none` = "out-of-bounds" error. -/
def Provider.getVector (v : Provider) (id : Nat) : Option (List Byte) := do
  let (_, idx) ← v.loaded.lookup id
  slice? v.vecBuf (idx * v.fpVecLen) (idx * v.fpVecLen + v.fpVecLen)

/-- `get_adjacency_list` (disk_vertex_provider.rs 91-102). -/
def Provider.getAdj (v : Provider) (id : Nat) : Option (List Nat) := do
  let (vi, _) ← v.loaded.lookup id
  v.adj[vi]?

/-- `get_associated_data` (disk_vertex_provider.rs 104-115). -/
def Provider.getAssoc (v : Provider) (id : Nat) : Option (List Byte) := do
  let (vi, _) ← v.loaded.lookup id
  v.assoc[vi]?

/-- Processing loaded vertices in some completion order: each entry is (vertex id, request index). -/
def Provider.processAll (v : Provider) : List (Nat × Nat) → Option Provider
  | [] => some v
  | (id, idx) :: rest => do (← v.process id idx).processAll rest

/-- `get_header` (disk_vertex_provider_factory.rs 54-75): skip the two `u32`s of `save_bytes` and parse.
(The code reads the first 4096 bytes; here the whole file is available to the parser, which only looks
at the first 104.) -/
def getHeader (file : List Byte) : Option Header := Header.tryFrom (file.drop 8)

end Verif.Disk
