import Verif.Quant.BitsModel

/-!
# Compressed vectors over borrowed bytes

Sources: /repo/diskann-quantization/src/meta/vector.rs 194-209, 384-541; meta/slice.rs 156-191, 355-470;
bits/slice.rs 247-253, 590-612; minmax/vectors.rs 45-99; /repo/diskann-providers/src/common/minmax_repr.rs
207-318.

A vector is viewed in a byte slice: a plain-old-data record ("metadata", here its bytes) next to packed codes.
`usize` products and sums wrap at 2^64, as they do in a release build (the workspace profile does not switch
overflow checks on).  Reading or splitting outside a slice is undefined behaviour: the outer `none`.
The caller's address space enters only as the address of the first byte.
-/

namespace Verif.Quant.Canon

open Verif.Quant

/-- Number of `usize` values. -/
def usizeMod : Nat := 2 ^ 64

/-- `Dense::bytes`, bits/slice.rs 249-253: the product wraps. -/
def sliceBytes (N count : Nat) : Nat := divRoundUp (N * count % usizeMod) 8

/-- `canonical_bytes`, meta/vector.rs 203-209; `m` is the size of the metadata. -/
def canonicalBytes (N m count : Nat) : Nat := (sliceBytes N count + m) % usizeMod

/-- `NotCanonical`, meta/vector.rs: expected and actual length, or the alignment required. -/
inductive NotCanonical
  | wrongLength (expected got : Nat)
  | notAligned (align : Nat)
deriving DecidableEq, Repr

/-- `VectorRef`/`VectorMut`: the metadata bytes and the codes. -/
structure View where
  metadata : List Byte
  bits : BitSlice

/-- `split_at_unchecked`: `none` when the position is outside the slice. -/
def splitUnchecked (data : List Byte) (k : Nat) : Option (List Byte × List Byte) :=
  if k ≤ data.length then some (data.take k, data.drop k) else none

/-- `from_canonical_unchecked` and `from_canonical_front_mut_unchecked`, meta/vector.rs 418-436, 495-510. -/
def frontUnchecked (m : Nat) (data : List Byte) (dim : Nat) : Option View := do
  let (front, back) ← splitUnchecked data m
  some ⟨front, back, dim⟩

/-- `from_canonical_front` and `from_canonical_front_mut`, meta/vector.rs 384-392, 478-487. -/
def front (N m : Nat) (data : List Byte) (dim : Nat) : Option (Except NotCanonical View) :=
  let expected := canonicalBytes N m dim
  if data.length ≠ expected then some (.error (.wrongLength expected data.length))
  else (frontUnchecked m data dim).map .ok

/-- `from_canonical_back` with `from_canonical_back_unchecked`, meta/vector.rs 401-410, 445-463; the subtraction
would wrap if the slice were shorter than the metadata, and the split be outside the slice. -/
def back (N m : Nat) (data : List Byte) (dim : Nat) : Option (Except NotCanonical View) :=
  let expected := canonicalBytes N m dim
  if data.length ≠ expected then some (.error (.wrongLength expected data.length))
  else if data.length < m then none
  else do
    let (codes, rest) ← splitUnchecked data (data.length - m)
    some (.ok ⟨rest, codes, dim⟩)

/-- `from_canonical_back_mut`, meta/vector.rs 516-541: split at the bytes of the codes, then check the rest. -/
def backMut (N m : Nat) (data : List Byte) (dim : Nat) : Except NotCanonical View :=
  let expected := canonicalBytes N m dim
  if sliceBytes N dim ≤ data.length then
    let codes := data.take (sliceBytes N dim)
    let rest := data.drop (sliceBytes N dim)
    if rest.length ≠ m then .error (.wrongLength expected data.length) else .ok ⟨rest, codes, dim⟩
  else .error (.wrongLength expected data.length)

/-- The bytes under a view of the front layout after writes through it. -/
def View.frontBytes (v : View) : List Byte := v.metadata ++ v.bits.data

/-- The bytes under a view of the back layout after writes through it. -/
def View.backBytes (v : View) : List Byte := v.bits.data ++ v.metadata

/-- `set_meta`, meta/vector.rs: replaces the whole record. -/
def View.setMeta (v : View) (bytes : List Byte) : View := { v with metadata := bytes }

/-! ## Slices of a plain type with metadata -/

/-- Size and alignment of a type. -/
structure Ty where
  size : Nat
  align : Nat
deriving DecidableEq, Repr

/-- `canonical_align`, meta/slice.rs 161-171. -/
def canonicalAlign (T M : Ty) : Nat := if M.align > T.align then M.align else T.align

/-- `usize::next_multiple_of`. -/
def nextMultipleOf (x k : Nat) : Nat := if x % k = 0 then x else x + (k - x % k)

/-- `canonical_metadata_bytes`, meta/slice.rs 178-185 (evaluated at compile time, where overflow is an error). -/
def metadataBytes (T M : Ty) : Nat := if M.size = 0 then 0 else nextMultipleOf M.size T.align

/-- `canonical_bytes`, meta/slice.rs 189-191. -/
def sliceCanonicalBytes (T M : Ty) (count : Nat) : Nat :=
  (metadataBytes T M + T.size * count % usizeMod) % usizeMod

/-- What `Slice` points at: the address of the metadata, of the first element, and the number of elements. -/
structure SliceView where
  metaAddr : Nat
  sliceAddr : Nat
  len : Nat
deriving DecidableEq, Repr

/-- `SliceRef::from_canonical` with its unchecked part, and `SliceMut::from_canonical_mut`, meta/slice.rs 355-402,
420-470. -/
def fromCanonical (T M : Ty) (addr len dim : Nat) : Except NotCanonical SliceView :=
  let expectedAlign := canonicalAlign T M
  let expectedLen := sliceCanonicalBytes T M dim
  if addr % expectedAlign ≠ 0 then .error (.notAligned expectedAlign)
  else if len ≠ expectedLen then .error (.wrongLength expectedLen len)
  else .ok ⟨addr, addr + metadataBytes T M, dim⟩

/-! ## MinMax vectors in a byte store -/

/-- `META_BYTES`, minmax/vectors.rs 53. -/
def metaBytes : Nat := 20

/-- `u32::to_le_bytes`. -/
def u32Le (n : Nat) : List Byte :=
  [BitVec.ofNat 8 n, BitVec.ofNat 8 (n / 256), BitVec.ofNat 8 (n / 65536), BitVec.ofNat 8 (n / 16777216)]

/-- `u32::from_le_bytes`. -/
def u32FromLe (a b c d : Byte) : Nat := a.toNat + 256 * b.toNat + 65536 * c.toNat + 16777216 * d.toNat

/-- `MMConvertError`, minmax_repr.rs. -/
inductive MinMaxError
  | metaParse (got : Nat)
  | notCanonical (e : NotCanonical)
  | wrongLength (dim got : Nat)
deriving DecidableEq, Repr

/-- `MinMaxCompensation::read_dimension`, minmax/vectors.rs 78-98; also `full_dimension` and `extract_dimension`,
minmax_repr.rs 207-209, 314-318 (an element is one byte). -/
def readDimension (bytes : List Byte) : Except MinMaxError Nat :=
  if bytes.length < metaBytes then .error (.metaParse bytes.length)
  else
    match bytes with
    | a :: b :: c :: d :: _ => .ok (u32FromLe a b c d)
    | _ => .error (.metaParse bytes.length)

/-- `from_raw`, minmax_repr.rs 298-312; the arguments of the length error are in the order of the code. -/
def fromRaw (N : Nat) (raw : List Byte) : Option (Except MinMaxError View) :=
  match readDimension raw with
  | .error e => some (.error e)
  | .ok dim =>
    let count := canonicalBytes N metaBytes dim
    if raw.length < count then some (.error (.notCanonical (.wrongLength raw.length count)))
    else
      match front N metaBytes (raw.take count) dim with
      | none => none
      | some (.error e) => some (.error (.notCanonical e))
      | some (.ok v) => some (.ok v)

/-- The checks of `as_f32_into`, minmax_repr.rs 258-268: the values are handed on only if the destination has
the stored dimension (decompression itself is `MinMaxModel`). -/
def decompressInto (N : Nat) (raw : List Byte) (dst : Nat) : Option (Except MinMaxError View) :=
  match fromRaw N raw with
  | none => none
  | some (.error e) => some (.error e)
  | some (.ok v) =>
    match readDimension v.metadata with
    | .error e => some (.error e)
    | .ok dim => if dim ≠ dst then some (.error (.wrongLength dim dst)) else some (.ok v)

end Verif.Quant.Canon
