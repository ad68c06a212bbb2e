/-! # Bit-packed slices: model of `diskann-quantization/src/bits/{packing,slice}.rs`

Bytes are `BitVec 8`. Accesses are checked in the model; `none` = an access out of bounds. The two-byte unaligned
read is little-endian (the targets the project builds for). -/

namespace Verif.Quant

abbrev Byte := BitVec 8

/-! ## `packing.rs` -/

/-- `mask::<N>()`. -/
def mask (N : Nat) : Byte := 0xff#8 >>> (8 - N)

/-- `unpack_u8`. -/
def unpackU8 (N : Nat) (byte : Byte) (bitstart : Nat) : Byte := (byte >>> bitstart) &&& mask N

/-- `unpack_u16`; `as u8` keeps the low byte. -/
def unpackU16 (N : Nat) (word : BitVec 16) (bitstart : Nat) : Byte := (word >>> bitstart).setWidth 8 &&& mask N

/-- `pack_u8`. -/
def packU8 (N : Nat) (before value : Byte) (bitstart : Nat) : Byte :=
  let shifted := mask N <<< bitstart
  (before &&& ~~~shifted) ||| ((value <<< bitstart) &&& shifted)

/-- `pack_u16`. -/
def packU16 (N : Nat) (before : BitVec 16) (value : Byte) (bitstart : Nat) : BitVec 16 :=
  let value : BitVec 16 := value.setWidth 16
  let shifted := (mask N).setWidth 16 <<< bitstart
  (before &&& ~~~shifted) ||| ((value <<< bitstart) &&& shifted)

/-! ## Layouts -/

/-- `utils.rs` 60-76. -/
def divRoundUp (x y : Nat) : Nat := x / y + (if x % y ≠ 0 then 1 else 0)

/-- A permutation strategy (`slice.rs` 217-241). -/
structure Layout where
  bytes : Nat → Nat
  pack : List Byte → Nat → Byte → Option (List Byte)
  unpack : List Byte → Nat → Option Byte

/-- Checked single byte write. -/
def putByte (data : List Byte) (i : Nat) (b : Byte) : Option (List Byte) :=
  if i < data.length then some (data.set i b) else none

/-- `Dense::pack`, `slice.rs` 261-306. -/
def densePack (N : Nat) (data : List Byte) (i : Nat) (encoded : Byte) : Option (List Byte) :=
  let bitaddress := N * i
  let bytestart := bitaddress / 8
  let bytestop := (bitaddress + N - 1) / 8
  let bitstart := bitaddress - 8 * bytestart
  if bytestart = bytestop then do
    let raw ← data[bytestart]?
    putByte data bytestart (packU8 N raw encoded bitstart)
  else do
    let lo ← data[bytestart]?
    let hi ← data[bytestart + 1]?
    let packed := packU16 N (hi ++ lo) encoded bitstart
    let data ← putByte data bytestart (packed.setWidth 8)
    putByte data (bytestart + 1) ((packed >>> 8).setWidth 8)

/-- `Dense::unpack`, `slice.rs` 308-324. -/
def denseUnpack (N : Nat) (data : List Byte) (i : Nat) : Option Byte :=
  let bitaddress := N * i
  let bytestart := bitaddress / 8
  let bytestop := (bitaddress + N - 1) / 8
  if bytestart = bytestop then do
    let raw ← data[bytestart]?
    some (unpackU8 N raw (bitaddress - 8 * bytestart))
  else do
    let lo ← data[bytestart]?
    let hi ← data[bytestart + 1]?
    some (unpackU16 N (hi ++ lo) (bitaddress - 8 * bytestart))

/-- `slice.rs` 247-325. -/
def dense (N : Nat) : Layout := ⟨fun count => divRoundUp (N * count) 8, densePack N, denseUnpack N⟩

/-- First byte and bit of element `i` in the transposed layout, `slice.rs` 350-356. -/
def transByte (i : Nat) : Nat := 32 * (i / 64) + (i % 64) / 8

/-- The loop over planes, `slice.rs` 358-363. -/
def transPackFrom (data : List Byte) (i : Nat) (encoded : Byte) : List Nat → Option (List Byte)
  | [] => some data
  | p :: ps => do
    let v ← data[transByte i + 8 * p]?
    let m : Byte := 1#8 <<< (i % 8)
    let v' := (v &&& ~~~m) ||| (((encoded >>> p) &&& 1#8) <<< (i % 8))
    let data ← putByte data (transByte i + 8 * p) v'
    transPackFrom data i encoded ps

/-- `slice.rs` 373-377. -/
def transUnpackFrom (data : List Byte) (i : Nat) (output : Byte) : List Nat → Option Byte
  | [] => some output
  | p :: ps => do
    let v ← data[transByte i + 8 * p]?
    transUnpackFrom data i (output ||| (((v >>> (i % 8)) &&& 1#8) <<< p)) ps

/-- `BitTranspose`, `slice.rs` 344-380 (four bits per element). -/
def bitTranspose : Layout :=
  ⟨fun count => 32 * divRoundUp count 64, fun data i v => transPackFrom data i v [0, 1, 2, 3],
    fun data i => transUnpackFrom data i 0 [0, 1, 2, 3]⟩

/-! ## Representations -/

/-- `Representation<N>` (encode = `none` for values outside the domain). -/
structure Representation where
  encode : Int → Option Byte
  decode : Byte → Int

/-- `Unsigned`, `slice.rs` 107-143. -/
def unsigned (N : Nat) : Representation :=
  ⟨fun v => if 0 ≤ v ∧ v ≤ 2 ^ N - 1 then some (BitVec.ofInt 8 v) else none, fun raw => raw.toNat⟩

/-- `Binary`, `slice.rs` 158-196. -/
def binary : Representation :=
  ⟨fun v => if v = -1 ∨ v = 1 then some (BitVec.ofInt 8 (max 0 (min v 1))) else none, fun raw => raw.toNat * 2 - 1⟩

/-! ## `BitSlice` -/

/-- `BitSliceBase`: the bytes and the number of elements. -/
structure BitSlice where
  data : List Byte
  count : Nat

inductive BitError
  | index
  | encoding
deriving DecidableEq, Repr

/-- `new`, `slice.rs` 590-612. -/
def BitSlice.new (L : Layout) (data : List Byte) (count : Nat) : Option BitSlice :=
  if data.length ≠ L.bytes count then none else some ⟨data, count⟩

/-- `new_boxed`, `slice.rs` 762-775. -/
def BitSlice.newBoxed (L : Layout) (count : Nat) : BitSlice := ⟨List.replicate (L.bytes count) 0, count⟩

/-- `get`, `slice.rs` 630-656: outer `none` = out of bounds access. -/
def BitSlice.get (L : Layout) (R : Representation) (s : BitSlice) (i : Nat) : Option (Except BitError Int) :=
  if i ≥ s.count then some (.error .index)
  else (L.unpack s.data i).map (fun raw => .ok (R.decode raw))

/-- `set`, `slice.rs` 659-692. -/
def BitSlice.set (L : Layout) (R : Representation) (s : BitSlice) (i : Nat) (v : Int) : Option (Except BitError BitSlice) :=
  if i ≥ s.count then some (.error .index)
  else
    match R.encode v with
    | none => some (.error .encoding)
    | some e => (L.pack s.data i e).map (fun data => .ok { s with data := data })

end Verif.Quant
