import Verif.Disk.LayoutModel
/-
Specification of the disk index: the vertices of an index, the byte streams a builder hands to the
layout writer, and what "well formed" means.
-/
namespace Verif.Disk

/-- A vertex of the index as the user sees it. -/
structure Vertex where
  vec : List Byte
  nbrs : List Nat
  assoc : List Byte

/-- The vertex fits the index parameters: the vector has `dims` elements, the degree bound holds, ids
are `u32`, and the associated data has the declared size. -/
structure Vertex.Fits (v : Vertex) (p : Params) : Prop where
  vec : v.vec.length = p.vecLen
  deg : v.nbrs.length ≤ p.maxDegree
  ids : ∀ n ∈ v.nbrs, n < 2 ^ 32
  assoc : v.assoc.length = p.assocBytes

/-- The input files of a list of vertices: vectors back to back; for every vertex the neighbour count
and the neighbour ids as little-endian `u32`s; associated data back to back. The graph file of an index built in memory goes
on with the list of the start point (C69), so it may have more bytes. -/
def streamsOf (vs : List Vertex) (more : List Byte := []) : Streams where
  data := (vs.map (·.vec)).flatten
  graph := (vs.map (fun v => leEncode 4 v.nbrs.length ++ (v.nbrs.map (leEncode 4)).flatten)).flatten ++ more
  assoc := (vs.map (·.assoc)).flatten

/-- A well-formed index: every vertex fits, degrees are `u32`, without an associated-data file there is
no associated data, and the block size is accepted by `DiskIndexWriter::new`. -/
structure WellFormed (p : Params) (vs : List Vertex) : Prop where
  num : vs.length = p.numPts
  fits : ∀ v ∈ vs, v.Fits p
  degU32 : p.maxDegree < 2 ^ 32
  assoc : p.hasAssoc = false → p.assocBytes = 0
  block : p.accepted

/-- Where the reader looks for vertex `i`: byte offset of its record in the file. -/
def recordStart (g : SectorGraph) (i : Nat) : Nat := g.sectorIndex i * g.blockSize + g.nodeOffset i

/-- Reachability in the stored graph. -/
inductive Reach (vs : List Vertex) (start : Nat) : Nat → Prop
  | refl : Reach vs start start
  | step {k n : Nat} {w : Vertex} : Reach vs start k → vs[k]? = some w → n ∈ w.nbrs → Reach vs start n

end Verif.Disk
