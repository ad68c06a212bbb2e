import Verif.Vec.BlockModel
import Mathlib.Algebra.Field.Defs
import Mathlib.Order.Defs.LinearOrder

/-! # Product quantization: chunk offsets, pivot tables and compression

`diskann-quantization/src/views.rs`, `diskann-quantization/src/product/tables/{basic,transposed/pivots,transposed/table}.rs`
and `diskann-quantization/src/algorithms/kmeans/common.rs`.

A slice is a list; a read or write outside an allocation is `none`, and so is a panic. `f32` values are finite numbers from
an ordered field `K`, the two infinities and NaN: sums, products and comparisons follow IEEE on them, but finite arithmetic
is exact (no rounding, no overflow, one zero). Conversions of element types to `f32` are the identity. -/

namespace Verif.Pq

open Verif.Vec

/-! ## Floating point values -/

/-- `f32`. -/
inductive Fl (K : Type)
  | num (v : K)
  | inf
  | ninf
  | nan
deriving DecidableEq, Repr

namespace Fl

variable {K : Type}

instance [Zero K] : Zero (Fl K) := ⟨num 0⟩

instance [Zero K] : Inhabited (Fl K) := ⟨0⟩

/-- `a + b`. -/
protected def add [Add K] : Fl K → Fl K → Fl K
  | num a, num b => num (a + b)
  | nan, _ => nan
  | _, nan => nan
  | inf, ninf => nan
  | ninf, inf => nan
  | inf, _ => inf
  | _, inf => inf
  | ninf, _ => ninf
  | _, ninf => ninf

/-- `-a`. -/
protected def neg [Neg K] : Fl K → Fl K
  | num a => num (-a)
  | inf => ninf
  | ninf => inf
  | nan => nan

/-- `a - b`. -/
protected def sub [Add K] [Neg K] (a b : Fl K) : Fl K := Fl.add a (Fl.neg b)

/-- An infinity times a finite number. -/
def infMul [Zero K] [LinearOrder K] (pos : Bool) (v : K) : Fl K :=
  if v = 0 then nan
  else if (0 < v) = (pos = true) then inf else ninf

/-- `a * b`. -/
protected def mul [Zero K] [Mul K] [LinearOrder K] : Fl K → Fl K → Fl K
  | num a, num b => num (a * b)
  | nan, _ => nan
  | _, nan => nan
  | inf, num b => infMul true b
  | ninf, num b => infMul false b
  | num a, inf => infMul true a
  | num a, ninf => infMul false a
  | inf, inf => inf
  | ninf, ninf => inf
  | inf, ninf => ninf
  | ninf, inf => ninf

instance [Add K] : Add (Fl K) := ⟨Fl.add⟩
instance [Neg K] : Neg (Fl K) := ⟨Fl.neg⟩
instance [Add K] [Neg K] : Sub (Fl K) := ⟨Fl.sub⟩
instance [Zero K] [Mul K] [LinearOrder K] : Mul (Fl K) := ⟨Fl.mul⟩

/-- `a < b`. -/
def lt [LinearOrder K] : Fl K → Fl K → Bool
  | nan, _ => false
  | _, nan => false
  | num a, num b => decide (a < b)
  | ninf, ninf => false
  | ninf, _ => true
  | _, ninf => false
  | inf, _ => false
  | num _, inf => true

/-- `is_finite`. -/
def isFinite : Fl K → Bool
  | num _ => true
  | _ => false

/-- `is_infinite`. -/
def isInfinite : Fl K → Bool
  | inf => true
  | ninf => true
  | _ => false

end Fl

/-! ## Chunk offsets -/

/-- `ChunkOffsetsBase`, `views.rs` 28-34. -/
structure Offsets where
  dim : Nat
  offsets : List Nat
deriving DecidableEq, Repr

/-- `ChunkOffsetError`. -/
inductive OffsetError
  | lengthNotAtLeastTwo (len : Nat)
  | doesNotBeginWithZero (start : Nat)
  | nonMonotonic (startVal start nextVal : Nat)
deriving DecidableEq, Repr

/-- The monotonicity loop of `ChunkOffsetsBase::new`, `views.rs` 118-142, from index `i` on; returns the last entry. -/
def monoLoop (slice : List Nat) (last : Nat) (i : Nat) : Nat → Except OffsetError Nat
  | 0 => .ok last
  | fuel + 1 =>
    let startVal := slice.getD (i - 1) 0
    let next := slice.getD i 0
    if next = 0 then .error (.nonMonotonic startVal (i - 1) 0)
    else if startVal ≥ next then .error (.nonMonotonic startVal (i - 1) next)
    else monoLoop slice next (i + 1) fuel

/-- `ChunkOffsetsBase::new`, `views.rs` 86-146. -/
def Offsets.new (slice : List Nat) : Except OffsetError Offsets :=
  let len := slice.length
  if len < 2 then .error (.lengthNotAtLeastTwo len)
  else
    let start := slice.getD 0 0
    if start ≠ 0 then .error (.doesNotBeginWithZero start)
    else
      let first := slice.getD 1 0
      if first = 0 then .error (.nonMonotonic start 0 0)
      else
        match monoLoop slice first 2 (len - 2) with
        | .error e => .error e
        | .ok last => .ok ⟨last, slice⟩

/-- `len`, 151-156. -/
def Offsets.len (o : Offsets) : Nat := o.offsets.length - 1

/-- `at`, 184-192: start and end of chunk `i`; panics outside. -/
def Offsets.range (o : Offsets) (i : Nat) : Option (Nat × Nat) :=
  if i < o.len then some (o.offsets.getD i 0, o.offsets.getD (i + 1) 0) else none

/-- One iteration of `fill_chunk_offsets`, 289-301: the running offset and the entries written so far. -/
def fillStep (dim n : Nat) (s : Nat × List Nat) (c : Nat) : Nat × List Nat :=
  let off := s.1 + dim / n
  let off := if c < dim % n then off + 1 else off
  (off, s.2.set (c + 1) off)

/-- `fill_chunk_offsets`, 289-301, on a slice of `n + 1` entries. -/
def fillChunkOffsets (dim : Nat) (offsets : List Nat) : List Nat :=
  let n := offsets.length - 1
  ((List.range n).foldl (fillStep dim n) (0, offsets.set 0 0)).2

/-- `ChunkOffsets::partition`, 233-243; `none` is the error. -/
def Offsets.partition (dim n : Nat) : Option Offsets :=
  if n > dim then none else some ⟨dim, fillChunkOffsets dim (List.replicate (n + 1) 0)⟩

/-- `ChunkOffsetsView::partition_into`, 254-272; the contents of `scratch` are arbitrary. -/
def Offsets.partitionInto (dim : Nat) (scratch : List Nat) : Option Offsets :=
  if scratch.length < 2 then none
  else if scratch.length - 1 > dim then none
  else some ⟨dim, fillChunkOffsets dim scratch⟩

/-- `&s[a..b]`. -/
def slice {T : Type} (s : List T) (a b : Nat) : Option (List T) :=
  if a ≤ b ∧ b ≤ s.length then some ((s.drop a).take (b - a)) else none

/-- `MatrixBase`: rows one after the other. -/
structure Mat (T : Type) where
  data : List T
  nrows : Nat
  ncols : Nat
deriving DecidableEq, Repr

/-- `MatrixBase::row`. -/
def Mat.row {T : Type} (m : Mat T) (i : Nat) : Option (List T) :=
  if i < m.nrows then slice m.data (i * m.ncols) (i * m.ncols + m.ncols) else none

/-! ## The basic table -/

/-- `TableCompressionError`, `basic.rs` 110-121. -/
inductive CompressErr
  | cannotCompressToByte (n : Nat)
  | invalidInputDim (want got : Nat)
  | invalidOutputDim (want got : Nat)
  | infinityOrNaN (chunk : Nat)
deriving DecidableEq, Repr

/-- `BasicTableBase`, `basic.rs` 27-34. -/
structure Basic (T : Type) where
  pivots : Mat T
  offsets : Offsets

/-- `BasicTableBase::new`, 65-82; `none` is an error. -/
def Basic.new {T : Type} (pivots : Mat T) (offsets : Offsets) : Option (Basic T) :=
  if pivots.ncols ≠ offsets.dim then none
  else if pivots.nrows = 0 then none
  else some ⟨pivots, offsets⟩

section

variable {K : Type} [Field K] [LinearOrder K]

/-- `SquaredL2::evaluate` on slices of equal length. The order of the summation is simplified here; the vectorised one is
modelled in `Verif.Vec.SimdModel`. -/
def sqL2 (x y : List (Fl K)) : Fl K :=
  (x.zip y).foldl (fun acc p => let c := p.1 - p.2; c * c + acc) 0

/-- The closure over the pivots, `basic.rs` 178-184. -/
def basicStep (sl : List (Fl K)) (a b : Nat) (m : Mat (Fl K)) (s : Fl K × Nat) (index : Nat) : Option (Fl K × Nat) := do
  let row ← m.row index
  let piece ← slice row a b
  if sl.length ≠ piece.length then none
  else
    let d := sqL2 sl piece
    some (if d.lt s.1 then (d, index) else s)

/-- The closure over the chunks, 172-194. -/
def Basic.chunkStep (t : Basic (Fl K)) (src : List (Fl K)) (s : Except CompressErr (List Nat)) (chunk : Nat) :
    Option (Except CompressErr (List Nat)) :=
  match s with
  | .error e => some (.error e)
  | .ok dst => do
    let (a, b) ← t.offsets.range chunk
    let sl ← slice src a b
    let best ← (List.range t.pivots.nrows).foldlM (basicStep sl a b t.pivots) (.inf, 2 ^ 64 - 1)
    if best.1.isInfinite then some (.error (.infinityOrNaN chunk))
    else some (.ok (dst.set chunk (best.2 % 256)))

/-- `BasicTableBase::compress_into`, 161-195. -/
def Basic.compressInto (t : Basic (Fl K)) (src : List (Fl K)) (dst : List Nat) :
    Option (Except CompressErr (List Nat)) :=
  if t.pivots.nrows > 256 then some (.error (.cannotCompressToByte t.pivots.nrows))
  else if src.length ≠ t.pivots.ncols then some (.error (.invalidInputDim t.pivots.ncols src.length))
  else if dst.length ≠ t.offsets.len then some (.error (.invalidOutputDim t.offsets.len dst.length))
  else (List.range dst.length).foldlM (t.chunkStep src) (.ok dst)

/-! ## Chunks of transposed pivots -/

/-- One `vx.mul_add_simd(vx, s)` of `square_norm`. -/
def sqStep (x : List (Fl K)) (off : Nat) (s : Lanes (Fl K)) : Option (Lanes (Fl K)) := do
  let v ← load x off 8
  some (fun k => v k * v k + s k)

/-- The four accumulators of the main loop of `square_norm`, `common.rs` 24-42. -/
def sqMain (x : List (Fl K)) (s : Lanes (Fl K) × Lanes (Fl K) × Lanes (Fl K) × Lanes (Fl K)) (b : Nat) :
    Option (Lanes (Fl K) × Lanes (Fl K) × Lanes (Fl K) × Lanes (Fl K)) := do
  let s0 ← sqStep x (32 * b) s.1
  let s1 ← sqStep x (32 * b + 8) s.2.1
  let s2 ← sqStep x (32 * b + 16) s.2.2.1
  let s3 ← sqStep x (32 * b + 24) s.2.2.2
  some (s0, s1, s2, s3)

/-- `square_norm`, `common.rs` 9-65. The `while` loops run `len / 32` and `len % 32 / 8` times. -/
def squareNorm (x : List (Fl K)) : Option (Fl K) := do
  let len := x.length
  let zero : Lanes (Fl K) := fun _ => 0
  let q ← (List.range (len / 32)).foldlM (sqMain x) (zero, zero, zero, zero)
  let s : Lanes (Fl K) := fun k => (q.1 k + q.2.1 k) + (q.2.2.1 k + q.2.2.2 k)
  let base := 32 * (len / 32)
  let s ← (List.range (len % 32 / 8)).foldlM (fun s j => sqStep x (base + 8 * j) s) s
  let i := base + 8 * (len % 32 / 8)
  let remainder := len - i
  if remainder ≠ 0 then do
    let v ← loadFirst x i remainder 8
    some (sumLanes 8 (fun k => v k * v k + s k))
  else some (sumLanes 8 s)

/-- `Chunk`, `pivots.rs` 150-155. -/
structure Chunk (K : Type) where
  data : BMat (Fl K)
  norms : List (Fl K)

/-- `Chunk::groupsize`, 158-160. -/
def groupsize : Nat := 16

/-- `Chunk::batchsize`, 163-165. -/
def batchsize : Nat := 4

/-- `Chunk::new`, 223-235. The outer `none` is a panic, the inner one an error. -/
def Chunk.new (v : Strided (Fl K)) : Option (Option (Chunk K)) :=
  if v.ncols = 0 then some none
  else if v.nrows = 0 then some none
  else do
    let norms ← (List.range v.nrows).mapM (fun i => v.row i >>= squareNorm)
    let data ← BMat.fromStrided groupsize 1 4 v
    some (some ⟨data, norms⟩)

/-- `ComputeKernel`, 906-969. -/
inductive Kernel
  | squaredL2 | innerProduct | mathematical
deriving DecidableEq, Repr

/-- `ComputeKernel::step` on one lane, 915-931, 933-948 and 953-969: `x` is the element of the query. -/
def Kernel.step (k : Kernel) (x y acc : Fl K) : Fl K :=
  match k with
  | .squaredL2 => (y - x) * (y - x) + acc
  | .innerProduct => (-x) * y + acc
  | .mathematical => x * y + acc

/-- `ComputeKernel::REMAINDER`. -/
def Kernel.remainder : Kernel → Fl K
  | .squaredL2 => .inf
  | .innerProduct => .inf
  | .mathematical => .ninf

/-- Two registers of eight lanes. -/
abbrev Two (K : Type) := Lanes (Fl K) × Lanes (Fl K)

/-- The fold of `compute_in_block`, 801-818. -/
def Chunk.blockStep (c : Chunk K) (k : Kernel) (x : List (Fl K)) (ptr : Nat) (acc : Two K) (i : Nat) : Option (Two K) := do
  let xi ← x[i]?
  let a0 ← load c.data.mem (ptr + groupsize * i) 8
  let a1 ← load c.data.mem (ptr + groupsize * i + 8) 8
  some (fun l => k.step xi (a0 l) (acc.1 l), fun l => k.step xi (a1 l) (acc.2 l))

/-- `compute_in_block`, 785-819; `block_ptr_unchecked(block)` points to `block_offset(block)`. -/
def Chunk.computeInBlock (c : Chunk K) (k : Kernel) (x : List (Fl K)) (block : Nat) : Option (Two K) :=
  if x.length ≠ c.data.repr.ncols then none
  else if ¬ block < c.data.repr.numBlocks then none
  else (List.range x.length).foldlM (c.blockStep k x (c.data.repr.blockOffset block)) (fun _ => 0, fun _ => 0)

/-- `compute_in_remainder`, 827-842. -/
def Chunk.computeInRemainder (c : Chunk K) (k : Kernel) (x : List (Fl K)) : Option (Two K) := do
  let d ← c.computeInBlock k x c.data.repr.fullBlocks
  let remainder := c.data.repr.remainder
  let keep := remainder % 8
  if remainder < 8 then some (fun l => if l < keep then d.1 l else k.remainder, fun _ => k.remainder)
  else some (d.1, fun l => if l < keep then d.2 l else k.remainder)

/-- `load_norms`, 715-731. -/
def Chunk.loadNorms (c : Chunk K) (block : Nat) : Option (Two K) := do
  let n0 ← load c.norms (groupsize * block) 8
  let n1 ← load c.norms (groupsize * block + 8) 8
  some (n0, n1)

/-- `load_remainder_norms`, 739-783. -/
def Chunk.loadRemainderNorms (c : Chunk K) : Option (Two K) :=
  let remainder := c.data.repr.remainder
  let first := remainder % 8
  let ptr := groupsize * c.data.repr.fullBlocks
  if remainder < 8 then do
    let n0 ← loadFirst c.norms ptr first 8
    some (n0, fun _ => 0)
  else do
    let n0 ← load c.norms ptr 8
    let n1 ← loadFirst c.norms (ptr + 8) first 8
    some (n0, n1)

/-- The tracking variables: per lane the smallest distance and its index. -/
abbrev Track (K : Type) := Lanes (Fl K × Nat)

/-- `update_tracking`, 895-903, lane by lane. -/
def updateTracking (a b : Track K) : Track K := fun l => if (b l).1.lt (a l).1 then b l else a l

/-- `u32::splat(base) + index_offsets`, with `base as u32`. -/
def indices (base : Nat) (l : Nat) : Nat := (base + l) % 2 ^ 32

/-- `update_tracking_with`, 863-879. -/
def updateTrackingWith (t : Track K) (d : Lanes (Fl K)) (base : Nat) : Track K :=
  updateTracking t (fun l => (d l, indices base l))

/-- `norm - (d + d)` on both registers, 275-276. -/
def proxies (n d : Two K) : Two K := (fun l => n.1 l - (d.1 l + d.1 l), fun l => n.2 l - (d.2 l + d.2 l))

/-- Body of the loop over the full blocks of `find_closest`, 269-293. -/
def Chunk.closestBlock (c : Chunk K) (x : List (Fl K)) (t : Track K) (block : Nat) : Option (Track K) := do
  let d ← c.computeInBlock .mathematical x block
  let n ← c.loadNorms block
  let p := proxies n d
  some (updateTrackingWith (updateTrackingWith t p.1 (groupsize * block)) p.2 (groupsize * block + 8))

/-- The remainder of `find_closest`, 296-322. -/
def Chunk.closestRemainder (c : Chunk K) (x : List (Fl K)) (t : Track K) : Option (Track K) :=
  let full := c.data.repr.fullBlocks
  if c.data.repr.remainder ≠ 0 then do
    let d ← c.computeInRemainder .mathematical x
    let n ← c.loadRemainderNorms
    let p := proxies n d
    some (updateTrackingWith (updateTrackingWith t p.1 (groupsize * full)) p.2 (groupsize * full + 8))
  else some t

/-- `f32::MAX`. -/
def f32Max : K := (2 ^ 24 - 1) * 2 ^ 104

/-- `u32::MAX`: the error state of `CompressionResult`, 50-60. -/
def errIndex : Nat := 2 ^ 32 - 1

/-- The final reduction over the lanes, 325-342 (starting at `f32::MAX`) and 683-700 (starting at infinity). -/
def finish (start : Fl K) (t : Track K) : Nat :=
  let m := (List.range 8).foldl (fun (m : Fl K × Nat) l => if (t l).1.lt m.1 then t l else m) (start, errIndex)
  if m.1.isFinite then m.2 else errIndex

/-- `Chunk::find_closest`, 253-343. -/
def Chunk.findClosest (c : Chunk K) (x : List (Fl K)) : Option Nat :=
  if x.length ≠ c.data.repr.ncols then none
  else do
    let t ← (List.range c.data.repr.fullBlocks).foldlM (c.closestBlock x) (fun _ => (.inf, errIndex))
    let t ← c.closestRemainder x t
    some (finish (.num f32Max) t)

/-- One unrolled iteration of the micro kernel, 526-545: dimension `j` for each of the four queries. The copies of each
statement for the queries are written once, for query number `q`. -/
def Chunk.batchStep (c : Chunk K) (x : Strided (Fl K)) (block q j : Nat) (acc : Two K) : Option (Two K) := do
  let row ← x.rowUnchecked q
  let a ← row[j]?
  let index := groupsize * (block * c.data.repr.ncols + j)
  let b0 ← load c.data.mem index 8
  let b1 ← load c.data.mem (index + 8) 8
  some (fun l => a * b0 l + acc.1 l, fun l => a * b1 l + acc.2 l)

/-- Loop B and the check for one more dimension, 518-598. -/
def Chunk.batchProducts (c : Chunk K) (x : Strided (Fl K)) (block q : Nat) : Option (Two K) := do
  let dim := c.data.repr.ncols
  let acc ← (List.range (dim / 2)).foldlM (fun acc j => do
    let acc ← c.batchStep x block q (2 * j) acc
    c.batchStep x block q (2 * j + 1) acc) (fun _ => 0, fun _ => 0)
  let last := 2 * (dim / 2)
  if last ≠ dim then c.batchStep x block q last acc else some acc

/-- Masking and norms, 608-641. -/
def Chunk.batchNorms (c : Chunk K) (block : Nat) (d : Two K) : Option (Two K × Two K) :=
  let remainder := c.data.repr.remainder
  if remainder ≠ 0 ∧ block + 1 = c.data.repr.numBlocks then do
    let lo := min remainder 8
    let hi := remainder - lo
    let n ← c.loadRemainderNorms
    some ((fun l => if l < lo then d.1 l else .ninf, fun l => if l < hi then d.2 l else .ninf), n)
  else do
    let n ← c.loadNorms block
    some (d, n)

/-- `norm - two * d`, 646-658. -/
def proxies2 (n d : Two K) : Two K := (fun l => n.1 l - .num 2 * d.1 l, fun l => n.2 l - .num 2 * d.2 l)

/-- Body of loop A for one query, 500-680. -/
def Chunk.batchBlock (c : Chunk K) (x : Strided (Fl K)) (q : Nat) (t : Track K) (block : Nat) : Option (Track K) := do
  let d ← c.batchProducts x block q
  let (d, n) ← c.batchNorms block d
  let p := proxies2 n d
  some (updateTracking t (updateTracking (fun l => (p.1 l, indices (groupsize * block) l))
    (fun l => (p.2 l, indices (groupsize * block + 8) l))))

/-- `find_closest_batch`, 386-708. -/
def Chunk.findClosestBatch (c : Chunk K) (x : Strided (Fl K)) : Option (List Nat) :=
  if x.nrows ≠ batchsize then none
  else if x.ncols ≠ c.data.repr.ncols then none
  else (List.range batchsize).mapM (fun q => do
    let t ← (List.range c.data.repr.numBlocks).foldlM (c.batchBlock x q) (fun _ => (.inf, errIndex))
    some (finish .inf t))

/-! ## The transposed table -/

/-- `TransposedTable`, `table.rs` 35-42. -/
structure Transposed (K : Type) where
  pivots : List (Chunk K)
  offsets : Offsets
  largest : Nat
  ncenters : Nat

/-- The closure of `from_parts`, 88-106; an inner `none` is the error of `Chunk::new`. -/
def makeChunk (pivots : Mat (Fl K)) (offsets : Offsets) (i : Nat) : Option (Option (Chunk K)) := do
  let (a, b) ← offsets.range i
  let data ← slice pivots.data a pivots.data.length
  match ← Strided.tryShrinkFrom data pivots.nrows (b - a) offsets.dim with
  | none => none
  | some v => Chunk.new v

/-- Collecting the chunks, 88-106: the first error ends the construction. -/
def makeChunks (pivots : Mat (Fl K)) (offsets : Offsets) : List Nat → Option (Option (List (Chunk K)))
  | [] => some (some [])
  | i :: is => do
    match ← makeChunk pivots offsets i with
    | none => some none
    | some c =>
      match ← makeChunks pivots offsets is with
      | none => some none
      | some cs => some (some (c :: cs))

/-- `TransposedTable::from_parts`, 73-116; an inner `none` is an error. -/
def Transposed.fromParts (pivots : Mat (Fl K)) (offsets : Offsets) : Option (Option (Transposed K)) :=
  if pivots.ncols ≠ offsets.dim then some none
  else do
    match ← makeChunks pivots offsets (List.range offsets.len) with
    | none => some none
    | some cs =>
      let sizes ← (List.range offsets.len).mapM (fun i => offsets.range i)
      some (some ⟨cs, offsets, sizes.foldl (fun m r => max m (r.2 - r.1)) 0, pivots.nrows⟩)

/-- The closure of the single vector `compress_into`, 393-401. -/
def Transposed.chunkStep (t : Transposed K) (src : List (Fl K)) (s : Except CompressErr (List Nat)) (i : Nat) :
    Option (Except CompressErr (List Nat)) :=
  match s with
  | .error e => some (.error e)
  | .ok dst => do
    let pivot ← t.pivots[i]?
    let (a, b) ← t.offsets.range i
    let sl ← slice src a b
    let r ← pivot.findClosest sl
    if r = errIndex then some (.error (.infinityOrNaN i)) else some (.ok (dst.set i (r % 256)))

/-- `compress_into` for a single vector, 382-402. -/
def Transposed.compressInto (t : Transposed K) (src : List (Fl K)) (dst : List Nat) :
    Option (Except CompressErr (List Nat)) :=
  if t.ncenters > 256 then some (.error (.cannotCompressToByte t.ncenters))
  else if src.length ≠ t.offsets.dim then some (.error (.invalidInputDim t.offsets.dim src.length))
  else if dst.length ≠ t.offsets.len then some (.error (.invalidOutputDim t.offsets.len dst.length))
  else (List.range (min t.pivots.length dst.length)).foldlM (t.chunkStep src) (.ok dst)

/-- A delegate of `compress_batch`: state, row, chunk, nearest; `none` is its error. -/
abbrev Delegate (σ : Type) := σ → Nat → Nat → Nat → Option σ

/-- The result so far: the error carries row and chunk. -/
abbrev BatchState (σ : Type) := Except (Nat × Nat) σ

/-- A call of the delegate, with its error wrapped, 219-235 and 247-254. -/
def callDelegate {σ : Type} (f : Delegate σ) (s : BatchState σ) (row chunk nearest : Nat) : BatchState σ :=
  match s with
  | .error e => .error e
  | .ok st =>
    match f st row chunk nearest with
    | none => .error (row, chunk)
    | some st => .ok st

/-- The body of the loop over batches of rows, 200-257. The packing buffer is rebuilt rather than overwritten: every row
that is read has been written before. After an error no further work is done. -/
def Transposed.batchRows {σ : Type} (f : Delegate σ) (m : Mat (Fl K)) (c : Chunk K) (i a b dim : Nat)
    (s : BatchState σ) (batch : Nat) : Option (BatchState σ) :=
  match s with
  | .error e => some (.error e)
  | .ok _ =>
    let rowStart := batch * batchsize
    let rowEnd := min m.nrows (rowStart + batchsize)
    if rowEnd - rowStart = batchsize then do
      let rows ← (List.range batchsize).mapM (fun j =>
        slice m.data (rowStart * m.ncols + a + j * dim) (rowStart * m.ncols + a + j * dim + (b - a)))
      let result ← c.findClosestBatch ⟨rows.flatten, batchsize, b - a, b - a⟩
      (List.range batchsize).foldlM (fun s j => do
        let r ← result[j]?
        some (callDelegate f s (rowStart + j) i r)) s
    else
      (List.range (rowEnd - rowStart)).foldlM (fun s j =>
        match s with
        | .error e => some (.error e)
        | .ok _ => do
          let row := rowStart + j
          let packed ← slice m.data (row * m.ncols + a) (row * m.ncols + a + (b - a))
          let r ← c.findClosest packed
          some (callDelegate f s row i r)) s

/-- The loop over the chunks, 188-260. -/
def Transposed.batchChunk {σ : Type} (t : Transposed K) (f : Delegate σ) (m : Mat (Fl K)) (s : BatchState σ) (i : Nat) :
    Option (BatchState σ) := do
  let c ← t.pivots[i]?
  let (a, b) ← t.offsets.range i
  if b - a = 0 then some s
  else if ¬ batchsize * (b - a) ≤ t.largest * batchsize then none
  else (List.range ((m.nrows + batchsize - 1) / batchsize)).foldlM (batchRows f m c i a b t.offsets.dim) s

/-- `compress_batch`, 155-262. -/
def Transposed.compressBatch {σ : Type} (t : Transposed K) (m : Mat (Fl K)) (f : Delegate σ) (s : σ) :
    Option (BatchState σ) :=
  if m.ncols ≠ t.offsets.dim then none
  else (List.range t.pivots.length).foldlM (t.batchChunk f m) (.ok s)

/-- `TableBatchCompressionError`, 405-422. -/
inductive BatchErr
  | cannotCompressToByte (n : Nat)
  | invalidInputDim (want got : Nat)
  | invalidOutputDim (want got : Nat)
  | unequalRows (src dst : Nat)
  | infinityOrNaN (chunk row : Nat)
deriving DecidableEq, Repr

/-- The delegate of the matrix `compress_into`, 492-498: an index out of range panics, which `compressMatrix` rules out by
its checks. -/
def codeDelegate (nchunks : Nat) : Delegate (List Nat) := fun dst row chunk r =>
  if r = errIndex then none else some (dst.set (row * nchunks + chunk) (r % 256))

/-- `compress_into` for matrices, 465-501. -/
def Transposed.compressMatrix (t : Transposed K) (src : Mat (Fl K)) (dst : Mat Nat) :
    Option (Except BatchErr (List Nat)) :=
  if t.ncenters > 256 then some (.error (.cannotCompressToByte t.ncenters))
  else if src.ncols ≠ t.offsets.dim then some (.error (.invalidInputDim t.offsets.dim src.ncols))
  else if dst.ncols ≠ t.offsets.len then some (.error (.invalidOutputDim t.offsets.len dst.ncols))
  else if src.nrows ≠ dst.nrows then some (.error (.unequalRows src.nrows dst.nrows))
  else do
    match ← t.compressBatch src (codeDelegate dst.ncols) dst.data with
    | .ok d => some (.ok d)
    | .error (row, chunk) => some (.error (.infinityOrNaN chunk row))

/-- `store_simd_first`: the first `n` of eight lanes; outside the allocation `none`. -/
def storeFirst (mem : List (Fl K)) (off n : Nat) (v : Lanes (Fl K)) : Option (List (Fl K)) :=
  if off + min n 8 ≤ mem.length then
    some ((List.range (min n 8)).foldl (fun m k => m.set (off + k) (v k)) mem)
  else none

/-- Body of the loop of `process_into`, `pivots.rs` 1026-1052. -/
def Chunk.processBlock (c : Chunk K) (k : Kernel) (x : List (Fl K)) (into : List (Fl K)) (block : Nat) :
    Option (List (Fl K)) := do
  let full := c.data.repr.fullBlocks
  let remainder := c.data.repr.remainder
  let d ← c.computeInBlock k x block
  if remainder ≠ 0 ∧ block = full then do
    let keepLo := min remainder 8
    let keepHi := remainder - keepLo
    let into ← storeFirst into (groupsize * full) keepLo d.1
    if keepHi ≠ 0 then storeFirst into (groupsize * full + 8) keepHi d.2 else some into
  else do
    let into ← storeFirst into (groupsize * block) 8 d.1
    storeFirst into (groupsize * block + 8) 8 d.2

/-- `ProcessInto::process_into`, 998-1054. -/
def Chunk.processInto (c : Chunk K) (k : Kernel) (x : List (Fl K)) (into : List (Fl K)) : Option (List (Fl K)) :=
  if x.length ≠ c.data.repr.ncols then none
  else if into.length ≠ c.data.repr.nrows then none
  else (List.range c.data.repr.numBlocks).foldlM (c.processBlock k x) into

/-- `TransposedTable::process_into`, `table.rs` 285-318: one row of partial results per chunk. -/
def Transposed.processInto (t : Transposed K) (k : Kernel) (query : List (Fl K)) (partials : Mat (Fl K)) :
    Option (List (List (Fl K))) :=
  if query.length ≠ t.offsets.dim then none
  else if partials.ncols ≠ t.ncenters then none
  else if partials.nrows ≠ t.offsets.len then none
  else (List.range (min t.pivots.length partials.nrows)).mapM (fun i => do
    let c ← t.pivots[i]?
    let out ← partials.row i
    let (a, b) ← t.offsets.range i
    let q ← slice query a b
    c.processInto k q out)

end

end Verif.Pq
