import Verif.Disk.CachedModel
/-
Model of the disk-index header.

Source: /repo/diskann-disk/src/data_model/graph_header.rs, graph_metadata.rs, graph_layout_version.rs
-/
namespace Verif.Disk

/-- `to_le_bytes` / `write_u64::<LittleEndian>` of a `k`-byte unsigned integer. -/
def leEncode : Nat → Nat → List Byte
  | 0, _ => []
  | k + 1, x => UInt8.ofNat (x % 256) :: leEncode k (x / 256)

/-- `GraphMetadata` (graph_metadata.rs 16-43): nine 64-bit fields (`usize` is 64 bits). -/
structure Metadata where
  numPts : Nat
  dims : Nat
  medoid : Nat
  nodeLen : Nat
  numNodesPerBlock : Nat
  frozenNum : Nat
  frozenLoc : Nat
  fileSize : Nat
  assocLen : Nat
  deriving DecidableEq

/-- `GraphHeader` (graph_header.rs 17-27) with `GraphLayoutVersion` (graph_layout_version.rs 15-18). -/
structure Header where
  md : Metadata
  blockSize : Nat
  major : Nat
  minor : Nat
  deriving DecidableEq

/-- `GraphMetadata::to_bytes` (graph_metadata.rs 78-97). -/
def Metadata.toBytes (m : Metadata) : List Byte :=
  leEncode 8 m.numPts ++ leEncode 8 m.dims ++ leEncode 8 m.medoid ++ leEncode 8 m.nodeLen ++
  leEncode 8 m.numNodesPerBlock ++ leEncode 8 m.frozenNum ++ leEncode 8 m.frozenLoc ++
  leEncode 8 0 ++ leEncode 8 m.fileSize ++ leEncode 8 m.assocLen

/-- `GraphMetadata::get_size` (graph_metadata.rs 99-102). -/
def Metadata.getSize : Nat := 8 * 10

/-- `Cursor::read_uN::<LittleEndian>`: the next `k` bytes and the rest; `none` = `UnexpectedEof`. -/
def readLE (k : Nat) (bs : List Byte) : Option (Nat × List Byte) :=
  if k ≤ bs.length then some (leDecode (bs.take k), bs.drop k) else none

/-- `GraphMetadata::try_from` (graph_metadata.rs 110-146); `none` is the returned error. -/
def Metadata.tryFrom (bs : List Byte) : Option Metadata := do
  if bs.length < Metadata.getSize then none
  else
    let (numPts, bs) ← readLE 8 bs
    let (dims, bs) ← readLE 8 bs
    let (medoid, bs) ← readLE 8 bs
    let (nodeLen, bs) ← readLE 8 bs
    let (npb, bs) ← readLE 8 bs
    let (fnum, bs) ← readLE 8 bs
    let (floc, bs) ← readLE 8 bs
    let (_, bs) ← readLE 8 bs
    let (fsz, bs) ← readLE 8 bs
    let (assoc, _) ← readLE 8 bs
    some ⟨numPts, dims, medoid, nodeLen, npb, fnum, floc, fsz, assoc⟩

/-- `GraphHeader::to_bytes` (graph_header.rs 61-68) with `GraphLayoutVersion::to_bytes`
(graph_layout_version.rs 38-43). -/
def Header.toBytes (h : Header) : List Byte :=
  h.md.toBytes ++ leEncode 8 h.blockSize ++ (leEncode 4 h.major ++ leEncode 4 h.minor)

/-- `GraphHeader::get_size` (graph_header.rs 70-76). -/
def Header.getSize : Nat := Metadata.getSize + 8 + 8

/-- `GraphLayoutVersion::try_from` (graph_layout_version.rs 70-86). -/
def versionTryFrom (bs : List Byte) : Option (Nat × Nat) := do
  if bs.length < 8 then none
  else
    let (major, bs) ← readLE 4 bs
    let (minor, _) ← readLE 4 bs
    some (major, minor)

/-- `GraphHeader::try_from` (graph_header.rs 125-147). -/
def Header.tryFrom (bs : List Byte) : Option Header := do
  if bs.length < Header.getSize then none
  else
    let md ← Metadata.tryFrom (bs.take Metadata.getSize)
    let (blockSize, _) ← readLE 8 (bs.drop Metadata.getSize)
    let (major, minor) ← versionTryFrom (bs.drop (Metadata.getSize + 8))
    some ⟨md, blockSize, major, minor⟩

/-- Outcome of `GraphHeader::max_degree` (graph_header.rs 94-118). -/
inductive MaxDegreeRes where
  | ok (d : Nat)
  | overflow
  | unsupportedVersion
  deriving DecidableEq

/-- `GraphHeader::max_degree::<DataType>` (graph_header.rs 94-118); `elemSize = size_of::<DataType>()`. -/
def Header.maxDegree (h : Header) (elemSize : Nat) : MaxDegreeRes :=
  if (h.major, h.minor) ∈ [(0, 0), (1, 0)] then
    let vectorLen := elemSize * h.md.dims
    match (((sub? h.md.nodeLen vectorLen).bind (sub? · h.md.assocLen)).map (· / 4)).bind (sub? · 1) with
    | some d => .ok d
    | none => .overflow
  else .unsupportedVersion

end Verif.Disk
