import Verif.Disk.GraphFileModel

/-!
# Model of vector files

`read_bin` / `write_bin` (diskann-utils/src/io.rs), `save_to_bin` / `load_from_bin`
(diskann-providers/src/storage/bin.rs), `VectorDataIterator` (diskann-providers/src/utils/vector_data_iterator.rs) and
`SampleVectorReader` (diskann-providers/src/utils/sampling.rs).

A vector is the list of its bytes: elements are plain data, so reading and writing them is a copy. `sz` is the size of
an element. Seeking past the end of a file is allowed, the next read fails; `usize` is 64 bits.
-/

namespace Verif.Disk

abbrev Row := List Byte

/-- `read_exact` of `k` bytes at a position. -/
def bytesAt (file : List Byte) (pos k : Nat) : Option (List Byte) :=
  if pos + k ≤ file.length then some ((file.drop pos).take k) else none

/-- A result that may be an error. -/
inductive BinRes (α : Type) where
  | err
  | ok (a : α)
deriving DecidableEq

/-- `Metadata::new(n, d)` followed by `write` (io.rs:87–96, 141–148); `none`: a number does not fit `u32`. -/
def metadataBytes (n d : Nat) : Option (List Byte) :=
  if n < 2 ^ 32 ∧ d < 2 ^ 32 then some (leEncode 4 n ++ leEncode 4 d) else none

/-- `Metadata::read` (io.rs:124–139). -/
def readMetadata (file : List Byte) : Option (Nat × Nat) :=
  if 8 ≤ file.length then some (leDecode (file.take 4), leDecode ((file.drop 4).take 4)) else none

/-- `write_bin` (io.rs:63–76) of a matrix with `ncols` columns: the bytes written, `none` on error. -/
def writeBin (rows : List Row) (ncols : Nat) : Option (List Byte) :=
  (metadataBytes rows.length ncols).map fun h => h ++ rows.flatten

/-- Cut bytes into `n` pieces of `w`. -/
def cutRows (w : Nat) : Nat → List Byte → List Row
  | 0, _ => []
  | n + 1, bs => bs.take w :: cutRows w n (bs.drop w)

/-- `read_bin` (io.rs:24–58): the rows and the number of columns. -/
def readBin (sz : Nat) (file : List Byte) : BinRes (List Row × Nat) :=
  match readMetadata file with
  | none => .err
  | some (n, d) =>
    if 2 ^ 64 ≤ n * d ∨ 2 ^ 64 ≤ n * d * sz then .err
    else if file.length - 8 < n * d * sz then .err
    else match bytesAt file 8 (n * d * sz) with
      | none => .err
      | some bs => .ok (cutRows (d * sz) n bs, d)

/-- The operations of `save_to_bin` (bin.rs:170–213) for vectors of the advertised dimension. -/
def saveBinOps (rows : List Row) (dim : Nat) : List WOp :=
  .write (leEncode 4 0 ++ leEncode 4 dim) :: rows.map (fun r => .write r) ++
    [.reset, .write (leEncode 4 rows.length), .flush]

/-- The file `save_to_bin` leaves. -/
def saveToBin (rows : List Row) (dim : Nat) : List Byte := (specWrites ([], 0) (saveBinOps rows dim)).1

/-- The file left when only `n` bytes get written. -/
def interruptedBin (rows : List Row) (dim n : Nat) : List Byte :=
  (specWrites ([], 0) (truncOps n (saveBinOps rows dim))).1

/-- `VectorDataIterator` without associated data (vector_data_iterator.rs:24–32). -/
structure VIter where
  file : List Byte
  pos : Nat
  width : Nat
  num : Nat
  cur : Nat

/-- `VectorDataIterator::new` (vector_data_iterator.rs:42–82). -/
def VIter.new (sz : Nat) (file : List Byte) : Option VIter :=
  (readMetadata file).map fun (n, d) => ⟨file, 8, d * sz, n, 0⟩

/-- `next` (vector_data_iterator.rs:147–178). A failed `read_exact` leaves the position unspecified; here it is
unchanged. -/
def VIter.next (it : VIter) : Option Row × VIter :=
  if it.num < it.cur + 1 then (none, { it with cur := it.cur + 1 })
  else match bytesAt it.file it.pos it.width with
    | none => (none, { it with cur := it.cur + 1 })
    | some r => (some r, { it with cur := it.cur + 1, pos := it.pos + it.width })

/-- `skip_elements` (vector_data_iterator.rs:111–140). -/
def VIter.skip (it : VIter) (n : Nat) : Bool × VIter :=
  if it.num - it.cur < n then (false, { it with cur := it.num })
  else if n = 0 then (true, it)
  else (true, { it with pos := it.pos + n * it.width, cur := it.cur + n })

/-- `nth` (vector_data_iterator.rs:180–186). -/
def VIter.nth (it : VIter) (n : Nat) : Option Row × VIter :=
  match it.skip n with
  | (true, it) => it.next
  | (false, it) => (none, it)

/-- The loop of `next_n` (vector_data_iterator.rs:97–104). -/
def VIter.collect : Nat → VIter → List Row × VIter
  | 0, it => ([], it)
  | n + 1, it =>
    match it.next with
    | (none, it) => ([], it)
    | (some r, it) => let x := VIter.collect n it; (r :: x.1, x.2)

/-- `next_n` (vector_data_iterator.rs:92–111). -/
def VIter.nextN (it : VIter) (n : Nat) : Option (List Row) × VIter :=
  let x := it.collect n
  (if x.1 = [] then none else some x.1, x.2)

/-- `for (i, _) in itr.enumerate()` (bin.rs:151–153): everything the iterator gives. -/
def VIter.all : Nat → VIter → List Row
  | 0, _ => []
  | n + 1, it =>
    match it.next with
    | (none, _) => []
    | (some r, it) => r :: VIter.all n it

/-- `load_from_bin` (bin.rs:129–157) into a store whose slots start out as `dflt d`. -/
def loadFromBin (sz : Nat) (dflt : Nat → Row) (file : List Byte) : BinRes (List Row × Nat) :=
  match readMetadata file, VIter.new sz file with
  | some (n, d), some it =>
    let rows := it.all (n + 1)
    .ok (rows ++ List.replicate (n - rows.length) (dflt d), d)
  | _, _ => .err

/-- A call on an iterator. -/
inductive IterOp where
  | next
  | nth (n : Nat)
  | nextN (n : Nat)

/-- Vectors returned by a sequence of calls. -/
def VIter.run : VIter → List IterOp → List (List Row)
  | _, [] => []
  | it, .next :: ops => let x := it.next; x.1.toList :: VIter.run x.2 ops
  | it, .nth n :: ops => let x := it.nth n; x.1.toList :: VIter.run x.2 ops
  | it, .nextN n :: ops => let x := it.nextN n; (x.1.getD []) :: VIter.run x.2 ops

/-- `SampleVectorReader` (sampling.rs:36–46). -/
structure Sampler where
  file : List Byte
  npts : Nat
  width : Nat
  pos : Nat
  cur : Nat

/-- `SampleVectorReader::new` (sampling.rs:121–163). `expected_size` wraps nowhere for sizes below `2^64`. -/
def Sampler.new (sz : Nat) (file : List Byte) : Option Sampler :=
  match readMetadata file with
  | none => none
  | some (n, d) => if file.length ≠ 8 + n * d * sz then none else some ⟨file, n, d * sz, 8, 0⟩

/-- `read_vectors` (sampling.rs:172–208): the vectors handed to the callback, whether the call succeeded, and the
reader afterwards. The callback sees the vectors so far, the latest last; `false` is an error. -/
def Sampler.readVectors (cb : List Row → Bool) : Sampler → List Row → List Nat → List Row × Bool × Sampler
  | s, out, [] => (out, true, s)
  | s, out, idx :: rest =>
    if s.npts ≤ idx then (out, false, s)
    else
      let target : Int := s.pos + ((idx : Int) - s.cur) * s.width
      if target < 0 then (out, false, s)
      else match bytesAt s.file target.toNat s.width with
        | none => (out, false, { s with pos := target.toNat })
        | some r =>
          if cb (out ++ [r]) then
            Sampler.readVectors cb { s with pos := target.toNat + s.width, cur := idx + 1 } (out ++ [r]) rest
          else (out ++ [r], false, { s with pos := target.toNat + s.width })

end Verif.Disk
