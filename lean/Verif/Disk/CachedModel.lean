/-
Model of the buffered sequential reader and writer of `diskann-disk`.

Source: /repo/diskann-disk/src/storage/cached_reader.rs, /repo/diskann-disk/src/storage/cached_writer.rs

The storage provider's reader / writer is modelled as the whole file contents plus a stream
position; `read_exact`, `write_all`, `seek(Start(0))` and `flush` are the standard-library contracts
on such a file and never fail for external reasons (an I/O error of the medium is not modelled).
`u64` offsets are naturals; a subtraction that would underflow, a slice out of range and a
`copy_from_slice` with mismatched lengths are all panics in Rust and are the outer `none` here.
-/
namespace Verif.Disk

abbrev Byte := UInt8

/-- `&buf[a..b]`: panics (none) unless `a ≤ b ≤ len`. -/
def slice? (buf : List Byte) (a b : Nat) : Option (List Byte) :=
  if a ≤ b ∧ b ≤ buf.length then some ((buf.drop a).take (b - a)) else none

/-- `buf[a..b].copy_from_slice(src)`: panics unless the range is valid and the lengths agree. -/
def copyInto? (buf : List Byte) (a b : Nat) (src : List Byte) : Option (List Byte) :=
  if a ≤ b ∧ b ≤ buf.length ∧ src.length = b - a then
    some (buf.take a ++ src ++ buf.drop b)
  else none

/-- Checked `u64` subtraction (overflow panics in debug builds; here always an explicit failure). -/
def sub? (a b : Nat) : Option Nat := if b ≤ a then some (a - b) else none

/-! ### The reader -/

/-- `CachedReader` (cached_reader.rs 14-32).  `file`/`pos` are the provider's reader: the bytes of the
opened file and its stream position. -/
structure Reader where
  file : List Byte
  pos : Nat
  cacheSize : Nat
  cacheBuf : List Byte
  curOff : Nat
  size : Nat

/-- `Read::read_exact` for `n` bytes: `none` is the `UnexpectedEof` error. -/
def readExact (file : List Byte) (pos n : Nat) : Option (List Byte × Nat) :=
  if pos + n ≤ file.length then some ((file.drop pos).take n, pos + n) else none

/-- Result of one call: the bytes put in the caller's buffer, or an error. -/
inductive ReadRes where
  | ok (bytes : List Byte)
  | err
  deriving DecidableEq

/-- `CachedReader::new` (cached_reader.rs 38-62): clamp the cache to the file, read it eagerly.
The inner `none` is the I/O error of the initial `read_exact`. -/
def Reader.new (file : List Byte) (cacheSize : Nat) : Option Reader :=
  let size := file.length
  let cacheSize := min cacheSize size
  match readExact file 0 cacheSize with
  | none => none
  | some (buf, pos) =>
    some { file := file, pos := pos, cacheSize := cacheSize, cacheBuf := buf, curOff := 0, size := size }

/-- `CachedReader::read` (cached_reader.rs 68-108).  Outer `none` = panic. -/
def Reader.read (r : Reader) (n : Nat) : Option (Reader × ReadRes) := do
  let room ← sub? r.cacheSize r.curOff
  if n ≤ room then
    let out ← slice? r.cacheBuf r.curOff (r.curOff + n)
    some ({ r with curOff := r.curOff + n }, .ok out)
  else
    let cached := room
    let rest ← sub? n cached
    let left ← sub? r.size r.pos
    if rest > left then
      some (r, .err)
    else
      -- `read_buf[..cached].copy_from_slice(&cache_buf[cur_off..])`
      let head ← slice? r.cacheBuf r.curOff r.cacheBuf.length
      if head.length ≠ cached then none
      else
        match readExact r.file r.pos rest with
        | none => some (r, .err)
        | some (tail, pos1) =>
          let left1 ← sub? r.size pos1
          if left1 ≥ r.cacheSize then
            match readExact r.file pos1 r.cacheBuf.length with
            | none => some ({ r with pos := pos1, curOff := r.cacheSize }, .err)
            | some (buf, pos2) =>
              some ({ r with pos := pos2, cacheBuf := buf, curOff := 0 }, .ok (head ++ tail))
          else
            some ({ r with pos := pos1, curOff := r.cacheSize }, .ok (head ++ tail))

/-- Little-endian decoding of a byte list (`u32::from_le_bytes` for 4 bytes). -/
def leDecode : List Byte → Nat
  | [] => 0
  | b :: bs => b.toNat + 256 * leDecode bs

/-- `CachedReader::read_u32` (cached_reader.rs 110-115); `none` inside the pair is the error. -/
def Reader.readU32 (r : Reader) : Option (Reader × Option Nat) :=
  match r.read 4 with
  | none => none
  | some (r', .ok bs) => some (r', some (leDecode bs))
  | some (r', .err) => some (r', none)

/-- A client issuing reads of the given sizes, one after the other, carrying on after an error. -/
def Reader.readAll (r : Reader) : List Nat → Option (Reader × List ReadRes)
  | [] => some (r, [])
  | n :: ns => do
    let (r, o) ← r.read n
    let (r, os) ← r.readAll ns
    some (r, o :: os)

/-! ### The writer -/

/-- `CachedWriter` (cached_writer.rs 11-29).  `file`/`pos` are the provider's writer. -/
structure Writer where
  file : List Byte
  pos : Nat
  cacheSize : Nat
  cacheBuf : List Byte
  curOff : Nat
  fsize : Nat

/-- `Write::write_all` on a seekable file: overwrite from the current position, extending at the end. -/
def writeAt (file : List Byte) (pos : Nat) (bs : List Byte) : List Byte :=
  file.take pos ++ bs ++ file.drop (pos + bs.length)

/-- `CachedWriter::new` (cached_writer.rs 35-48) over a freshly created (empty) file; inner `none` is
the "Cache size must be greater than 0" error. -/
def Writer.new (cacheSize : Nat) : Option Writer :=
  if cacheSize = 0 then none
  else some { file := [], pos := 0, cacheSize := cacheSize,
              cacheBuf := List.replicate cacheSize 0, curOff := 0, fsize := 0 }

/-- `flush_cache` (cached_writer.rs 95-102). -/
def Writer.flushCache (w : Writer) : Option Writer := do
  let out ← slice? w.cacheBuf 0 w.curOff
  some { w with file := writeAt w.file w.pos out, pos := w.pos + out.length,
                fsize := w.fsize + w.curOff,
                cacheBuf := List.replicate w.cacheBuf.length 0, curOff := 0 }

/-- `flush` (cached_writer.rs 50-59); the provider's own `flush` is a no-op on the file model.
`Drop` (cached_writer.rs 105-113) calls exactly this. -/
def Writer.flush (w : Writer) : Option Writer :=
  if w.curOff > 0 then w.flushCache else some w

/-- `write` (cached_writer.rs 66-87). -/
def Writer.write (w : Writer) (bs : List Byte) : Option Writer := do
  let n := bs.length
  let room ← sub? w.cacheSize w.curOff
  if n ≤ room then
    let buf ← copyInto? w.cacheBuf w.curOff (w.curOff + n) bs
    some { w with cacheBuf := buf, curOff := w.curOff + n }
  else
    let out ← slice? w.cacheBuf 0 w.curOff
    let file1 := writeAt w.file w.pos out
    let pos1 := w.pos + out.length
    some { w with file := writeAt file1 pos1 bs, pos := pos1 + n,
                  fsize := w.fsize + w.curOff + n,
                  cacheBuf := List.replicate w.cacheBuf.length 0, curOff := 0 }

/-- `reset` (cached_writer.rs 89-93): flush the cache and seek to the start of the file. -/
def Writer.reset (w : Writer) : Option Writer := do
  let w ← w.flushCache
  some { w with pos := 0 }

/-- The public calls that change a writer. -/
inductive WOp where
  | write (bs : List Byte)
  | flush
  | reset

def Writer.apply (w : Writer) : WOp → Option Writer
  | .write bs => w.write bs
  | .flush => w.flush
  | .reset => w.reset

def Writer.run (w : Writer) : List WOp → Option Writer
  | [] => some w
  | op :: ops => do (← w.apply op).run ops

end Verif.Disk
