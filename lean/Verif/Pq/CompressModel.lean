import Verif.Pq.StoreModel

/-! # Compressed data files

`QuantDataGenerator::generate_data` (`diskann-disk/src/storage/quant/generator.rs`), `generate_pq_data_from_pivots`
(`diskann-providers/src/model/pq/pq_construction.rs`), `load_pq_compressed_vectors_bin`
(`diskann-providers/src/storage/pq_storage.rs`) and the call of the tool `build_pq` (`diskann-tools/src/utils/build_pq.rs`).

Vectors are the bytes of a row of the data file, elements have `sz` bytes. The conversion of a row to `f32` and the
compression of a batch are parameters (`Verif.Pq.EncodeModel` for product quantization). The batches of a block are
compressed in parallel into disjoint windows of the output; each of them reads its own window only, so the order does not
matter and one error makes the block fail. Writers are those of `FileStorageProvider`: a new file is empty, an existing one
is opened at position zero. Numbers of bytes do not overflow. -/

namespace Verif.Pq

open Verif.Disk

/-- How a call ends. -/
inductive GenRes
  | ok
  | err
  | panic
deriving DecidableEq

/-- A block of codes, an error or a panic. -/
inductive BlockRes
  | codes (bs : List Byte)
  | err
  | panic

/-- `VectorRepr` and `QuantCompressor`, `compressor.rs` 30-40: the full dimension of a row, its conversion into a slice of a
given length, the size of a code and the compression of a batch. -/
structure Compressor (F : Type) where
  fullDim : Row → Option Nat
  conv : Row → Nat → Option (List F)
  bytes : Nat
  compress : List (List F) → Option (List (List Byte))

/-- `par_window_iter`: consecutive windows of `k` rows, the last one may be shorter. -/
def windows {T : Type} (k : Nat) : Nat → List T → List (List T)
  | 0, _ => []
  | fuel + 1, xs => if xs = [] then [] else xs.take k :: windows k fuel (xs.drop k)

/-- All or nothing. -/
def allOk {A B : Type} (f : A → Option B) : List A → Option (List B)
  | [] => some []
  | a :: as =>
    match f a, allOk f as with
    | some b, some bs => some (b :: bs)
    | _, _ => none

/-- `BATCH_SIZE`, `generator.rs` 146. -/
def batchSize : Nat := 128

/-- The batches of a block, `generator.rs` 148-163. -/
def compressBlock {F : Type} (c : Compressor F) (rows : List (List F)) : Option (List Byte) :=
  (allOk c.compress (windows batchSize rows.length rows)).map fun bs => bs.flatten.flatten

/-- The conversion of a block to `f32` and its compression, `generator.rs` 123-163; `fd` is the dimension of the buffer.
`chunks_exact` of zero panics. -/
def encodeBlock {F : Type} (c : Compressor F) (dim fd : Nat) (rows : List Row) : BlockRes :=
  if dim = 0 ∨ fd = 0 then .panic
  else match allOk (fun r => c.conv r fd) rows with
    | none => .err
    | some block =>
      match compressBlock c block with
      | none => .err
      | some bs => .codes bs

/-- One call of `action`, `generator.rs` 113-168, before its write: `cur` rows from row `start` on are read where the previous
block ended. -/
def generatorBlock {F : Type} (c : Compressor F) (sz dim : Nat) (data : List Byte) (start cur : Nat) : BlockRes :=
  match bytesAt data (8 + start * (dim * sz)) (cur * (dim * sz)) with
  | none => .err
  | some bs =>
    let rows := cutRows (dim * sz) cur bs
    match c.fullDim (rows.headD []) with
    | none => .err
    | some fd => encodeBlock c dim fd rows

/-- The loop over the blocks, `generator.rs` 170-172: what is written, and the outcome. `blk start cur` is one block. -/
def blockLoop (blk : Nat → Nat → BlockRes) (width block n : Nat) : Nat → Nat → List POp × GenRes
  | 0, _ => ([], .ok)
  | k + 1, start =>
    let stop := min (start + block) n
    match blk start (stop - start) with
    | .err => ([], .err)
    | .panic => ([], .panic)
    | .codes bs =>
      let r := blockLoop blk width block n k (start + block)
      (.seek (start * width + 8) :: .write bs :: r.1, r.2)

/-- Number of blocks, `generator.rs` 104. -/
def numBlocks (n block : Nat) : Nat := n / block + if n % block = 0 then 0 else 1

/-- `generate_data`, `generator.rs` 70-182: what is written to the new output file, `none` when the output file is not touched,
and the outcome. -/
def generateData {F : Type} (c : Compressor F) (sz : Nat) (data : List Byte) (maxBlock : Nat) : Option (List POp) × GenRes :=
  match readMetadata data with
  | none => (none, .err)
  | some (n, dim) =>
    if maxBlock = 0 then (none, .err)
    else if n = 0 then (none, .err)
    else match metadataBytes n c.bytes with
      | none => (some [], .err)
      | some h =>
        let block := min n maxBlock
        let r := blockLoop (generatorBlock c sz dim data) c.bytes block n (numBlocks n block) 0
        (some (.write h :: r.1), r.2)

/-- The output file afterwards; `old` is the one before. -/
def outputAfter (old : Option (List Byte)) (r : Option (List POp) × GenRes) : Option (List Byte) :=
  match r.1 with
  | none => old
  | some ops => some (fileOf ops)

/-- One block of `generate_pq_data_from_pivots`, `pq_construction.rs` 399-433. The dimension of the buffer is that of the
pivots. -/
def pivotsBlock {F : Type} (c : Compressor F) (sz dim fd : Nat) (data : List Byte) (start cur : Nat) : BlockRes :=
  match bytesAt data (8 + start * (dim * sz)) (cur * (dim * sz)) with
  | none => .err
  | some bs => encodeBlock c dim fd (cutRows (dim * sz) cur bs)

/-- `generate_pq_data_from_pivots`, `pq_construction.rs` 316-446, once the table of pivots of dimension `fd` has been loaded
and checked: the output file afterwards and the outcome. `file` is the existing output file, used when `offset > 0`. -/
def generateFromPivots {F : Type} (c : Compressor F) (sz fd : Nat) (data : List Byte) (offset : Nat)
    (file : Option (List Byte)) : Option (List Byte) × GenRes :=
  let opened := if offset > 0 then file else some []
  match opened with
  | none => (none, .err)
  | some f =>
    match readMetadata data with
    | none => (some f, .err)
    | some (n, dim) =>
      match metadataBytes n c.bytes with
      | none => (some f, .err)
      | some h =>
        let block := if n ≤ 10000 then n else 10000
        -- the subtraction and the division
        if n < offset ∨ block = 0 then (some (runP (f, 0) [.write h]).1, .panic)
        else
          let r := blockLoop (pivotsBlock c sz dim fd data) c.bytes block n (numBlocks (n - offset) block) offset
          (some (runP (f, 0) (.write h :: r.1)).1, r.2)

/-- `load_pq_compressed_vectors_bin`, `pq_storage.rs` 181-202. -/
def loadCompressed (file : List Byte) (n chunks : Nat) : BinRes (List Row) :=
  match readBin 1 file with
  | .err => .err
  | .ok (rows, d) => if rows.length ≠ n ∨ d ≠ chunks then .err else .ok rows

end Verif.Pq
