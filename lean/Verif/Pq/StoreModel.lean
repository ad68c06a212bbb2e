import Verif.Disk.VectorFileModel
import Verif.Pq.EncodeModel

/-! # Product quantization: pivot files

`diskann-providers/src/storage/pq_storage.rs`, `diskann-providers/src/utils/storage_utils.rs` (`read_bin_from`,
`write_bin_from`), `generate_pq_pivots` and `accum_row_inplace` of `diskann-providers/src/model/pq/pq_construction.rs`, and
`PQGeneration::new` of `diskann-disk/src/storage/quant/pq/pq_generation.rs`.

A file is its bytes. Writing at a position beyond the end fills the gap with zeros; seeking alone changes nothing. A write
that is cut short has put down a prefix of the bytes, in program order. An `f32` is its bit pattern, a number below `2^32`;
the addition of `f32` is a parameter. Training is a parameter too (`Verif.Kmeans`). `usize` is 64 bits. -/

namespace Verif.Pq

open Verif.Disk

/-! ## Writing -/

/-- What a writer is asked to do. -/
inductive POp
  | seek (pos : Nat)
  | write (bs : List Byte)

/-- Bytes put into a file at a position. -/
def overwrite (file : List Byte) (pos : Nat) (bs : List Byte) : List Byte :=
  if bs = [] then file
  else file.take pos ++ List.replicate (pos - file.length) 0 ++ bs ++ file.drop (pos + bs.length)

/-- The contents of a file and the position of the writer after some operations. -/
def runP : List Byte × Nat → List POp → List Byte × Nat
  | s, [] => s
  | s, .seek pos :: ops => runP (s.1, pos) ops
  | s, .write bs :: ops => runP (overwrite s.1 s.2 bs, s.2 + bs.length) ops

/-- Only the first `n` bytes get written. -/
def cutP : Nat → List POp → List POp
  | _, [] => []
  | n, .seek pos :: ops => .seek pos :: cutP n ops
  | n, .write bs :: ops => if n < bs.length then [.write (bs.take n)] else .write bs :: cutP (n - bs.length) ops

/-- `METADATA_SIZE`, `model/pq/mod.rs`. -/
def metadataSize : Nat := 4096

/-- `MatrixView::try_from` followed by `write_bin`, `pq_storage.rs` 107-108; `none` is an error. -/
def pivotBytes (pivots : List Nat) (nc dim : Nat) : Option (List Byte) :=
  if pivots.length ≠ nc * dim then none
  else (metadataBytes nc dim).map fun h => h ++ pivots.flatMap (leEncode 4)

/-- `write_bin(MatrixView::column_vector(..))` of elements of `k` bytes. -/
def columnBytes (k : Nat) (xs : List Nat) : Option (List Byte) :=
  (metadataBytes xs.length 1).map fun h => h ++ xs.flatMap (leEncode k)

/-- The offset table, 126-132. -/
def headerBytes (p c o : Nat) : Option (List Byte) :=
  columnBytes 8 [metadataSize, metadataSize + p, metadataSize + p + c, metadataSize + p + c + o]

/-- `PQStorage::write_pivot_data`, 87-136, after `create_for_write`: what is written and whether it succeeds. -/
def writePivots (pivots : List Nat) (centroid : Option (List Nat)) (offsets : List Nat) (nc dim : Nat) :
    List POp × Bool :=
  let start := POp.seek metadataSize
  match pivotBytes pivots nc dim with
  | none => ([start], false)
  | some p =>
    match columnBytes 4 (centroid.getD (List.replicate dim 0)) with
    | none => ([start, .write p], false)
    | some c =>
      match columnBytes 4 (offsets.map (· % 2 ^ 32)) with
      | none => ([start, .write p, .write c], false)
      | some o =>
        match headerBytes p.length c.length o.length with
        | none => ([start, .write p, .write c, .write o, .seek 0], false)
        | some h => ([start, .write p, .write c, .write o, .seek 0, .write h], true)

/-- The file after some operations on the empty file that `create_for_write` leaves. -/
def fileOf (ops : List POp) : List Byte := (runP ([], 0) ops).1

/-! ## Reading -/

/-- `read_bin_from`, `storage_utils.rs` 40-46. -/
def readBinFrom (sz : Nat) (file : List Byte) (pos : Nat) : BinRes (List Row × Nat) := readBin sz (file.drop pos)

/-- `read_existing_pivot_metadata`, 145-155: number of centers and dimension. -/
def readPivotMetadata (file : List Byte) : Option (Nat × Nat) := readMetadata (file.drop metadataSize)

/-- `c != 0.0` on bit patterns: both zeros compare equal to zero. -/
def nonZeroBits (x : Nat) : Bool := x != 0 && x != 2 ^ 31

/-- `accum_row_inplace`, `pq_construction.rs` 296-306, on the rows of the table. -/
def accumRows (add : Nat → Nat → Nat) (rows : List (List Nat)) (y : List Nat) : List (List Nat) :=
  rows.map fun r => List.zipWith add r y

/-- `read_pivot_file`, `pq_storage.rs` 204-272: pivots with their dimension, centroid and chunk offsets. -/
def readPivotFile (file : List Byte) : BinRes ((List (List Nat) × Nat) × List Nat × List Nat) :=
  match readBinFrom 8 file 0 with
  | .err => .err
  | .ok (offs, nc) =>
    if offs.length ≠ 4 ∨ nc ≠ 1 then .err
    else
      let at' := fun i => leDecode (offs.getD i [])
      match readBinFrom 4 file (at' 0) with
      | .err => .err
      | .ok (rows, d) =>
        if rows.length > 256 then .err
        else match readBinFrom 4 file (at' 1) with
          | .err => .err
          | .ok (cent, cc) =>
            if cent.length ≠ d ∨ cc ≠ 1 then .err
            else match readBinFrom 4 file (at' 2) with
              | .err => .err
              | .ok (chunks, kc) =>
                if kc ≠ 1 then .err
                else .ok ((rows.map (decodeU32s d), d), cent.map leDecode, chunks.map leDecode)

/-- `pivot_data_into_basic_table`, 274-296. -/
def pivotsIntoTable (rows : List (List Nat)) (d : Nat) (chunks : List Nat) : BinRes (Basic Nat) :=
  match Offsets.new chunks with
  | .error _ => .err
  | .ok o =>
    match Basic.new ⟨rows.flatten, rows.length, d⟩ o with
    | none => .err
    | some t => .ok t

/-- `PQStorage::load_pivots`, 163-176, on an existing file. -/
def loadPivots (add : Nat → Nat → Nat) (file : List Byte) : BinRes (Basic Nat) :=
  match readPivotFile file with
  | .err => .err
  | .ok ((rows, d), cent, chunks) =>
    let rows := if cent.any nonZeroBits then accumRows add rows cent else rows
    pivotsIntoTable rows d chunks

/-! ## Generating -/

/-- What training delivers to `write_pivot_data`. -/
structure Trained where
  pivots : List Nat
  centroid : Option (List Nat)
  offsets : List Nat
  nc : Nat
  dim : Nat

/-- `generate_pq_pivots`, `pq_construction.rs` 77-146: whether it succeeds, and the pivot file afterwards. `file = none`: there
is none. `trained = none`: training fails. Afterwards the file is the one of a write that was not interrupted. -/
def generatePivots (nc dim : Nat) (trained : Option Trained) (file : Option (List Byte)) : Bool × Option (List Byte) :=
  let run := match trained with
    | none => (false, file)
    | some t =>
      let w := writePivots t.pivots t.centroid t.offsets t.nc t.dim
      (w.2, some (fileOf w.1))
  match file with
  | none => run
  | some f =>
    match readPivotMetadata f with
    | none => (false, file)
    | some (n, d) => if d = dim ∧ n = nc then (true, file) else run

/-- The end of `PQGeneration::new`, `pq_generation.rs` 109-131, up to the transposition of the table. -/
def loadChecked (add : Nat → Nat → Nat) (chunks centers : Nat) (file : Option (List Byte)) : BinRes (Basic Nat) :=
  match file with
  | none => .err
  | some f =>
    match readPivotMetadata f with
    | none => .err
    | some (_, fullDim) =>
      match loadPivots add f with
      | .err => .err
      | .ok t =>
        if t.offsets.len ≠ chunks ∨ t.pivots.nrows ≠ centers ∨ t.pivots.ncols ≠ fullDim then .err else .ok t

/-- `PQGeneration::new`, `pq_generation.rs` 60-137: the table and the pivot file afterwards. `sample`: the training sample is
drawn (`none`: it cannot be read) and its dimension; `trained` is the outcome of training on it. -/
def pqGenerationNew (add : Nat → Nat → Nat) (chunks dim centers : Nat) (sample : Option Nat) (trained : Option Trained)
    (file : Option (List Byte)) : BinRes (Basic Nat) × Option (List Byte) :=
  if chunks > dim then (.err, file)
  else
    match file with
    | some f => (loadChecked add chunks centers (some f), some f)
    | none =>
      match sample with
      | none => (.err, none)
      | some trainDim =>
        let g := generatePivots centers trainDim trained none
        if g.1 then (loadChecked add chunks centers g.2, g.2) else (.err, g.2)

/-! ## Centering -/

section

variable {K : Type} [Field K]

/-- `move_train_data_by_centroid`, `pq_construction.rs` 259-290: the centroid and the moved rows. Exact arithmetic; rows have
the given dimension. -/
def moveByCentroid (rows : List (List K)) (dim : Nat) : List K × List (List K) :=
  let sums := rows.foldl (fun c r => List.zipWith (· + ·) c r) (List.replicate dim 0)
  let c := sums.map (· / (rows.length : K))
  (c, rows.map fun r => List.zipWith (· - ·) r c)

end

end Verif.Pq
