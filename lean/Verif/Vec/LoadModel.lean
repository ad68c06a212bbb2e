import Verif.Vec.SimdModel

/-! # Partial loads and stores of vector registers: model of `diskann-wide`

Memory is the list of elements readable from some base; an access outside it is `none`. A register is a function from lane
numbers to elements. Instructions are modelled by their documented lane-wise meaning: masked loads and stores touch only
the lanes set in the mask, `pshufb` gives zero for an index with its top bit set, `tbl` for an index of 16 or more. The
conversions between lane masks and bit masks are not modelled. -/

namespace Verif.Vec

open Verif.Quant (Byte)

/-- Little-endian integer made of the first `n` bytes of `f`. -/
def le : Nat → (Nat → Byte) → BitVec 64
  | 0, _ => 0
  | n + 1, f => le n f ||| ((f n).setWidth 64 <<< (8 * n))

/-- `read_unaligned` of an `n`-byte integer at byte `p`, zero extended to 64 bits. -/
def readLE (mem : List Byte) (p n : Nat) : Option (BitVec 64) :=
  if p + n ≤ mem.length then some (le n (fun k => mem.getD (p + k) 0)) else none

/-- The bytes of a 64-bit integer placed in the low half of a register. -/
def bytesOf (v : BitVec 64) : Lanes Byte := fun k => if k < 8 then v.extractLsb' (8 * k) 8 else 0

/-- `_mm_loadl_epi64`, `vcombine_u8(vld1_u8(p), 0)`: eight bytes, the upper half zero. -/
def load8 (mem : List Byte) (p : Nat) : Option (Lanes Byte) :=
  if p + 8 ≤ mem.length then some (fun k => if k < 8 then mem.getD (p + k) 0 else 0) else none

/-- `_mm_shuffle_epi8`. -/
def pshufb (v : Lanes Byte) (idx : Lanes Byte) : Lanes Byte := fun k =>
  if (idx k).msb then 0 else v ((idx k).toNat % 16)

/-- `vqtbl1q_u8`. -/
def tbl (v : Lanes Byte) (idx : Lanes Byte) : Lanes Byte := fun k =>
  if 16 ≤ (idx k).toNat then 0 else v (idx k).toNat

/-- Which shuffle the target has. -/
inductive Target
  | x86 | neon
deriving DecidableEq, Repr

/-- The shuffle. -/
def Target.shuffle : Target → Lanes Byte → Lanes Byte → Lanes Byte
  | .x86 => pshufb
  | .neon => tbl

/-- `__load_8_to_16_bytes`, `x86_64/algorithms.rs` 19-52; `load_8_to_16_bytes`, `aarch64/internal/load_first.rs`
231-286. -/
def load8to16 (tgt : Target) (mem : List Byte) (p bytes : Nat) : Option (Lanes Byte) := do
  let base : Lanes Byte := fun k => BitVec.ofNat 8 k
  let lo ← load8 mem p
  let hi ← load8 mem (p + (bytes - 8))
  let mask : Lanes Byte := fun k => base k - BitVec.ofNat 8 (bytes - 8)
  let shifted := tgt.shuffle hi mask
  some (fun k => lo k ||| shifted k)

/-- `load_first_of_8_bytes`, `load_first.rs` 295-316. -/
def loadFirst8 (mem : List Byte) (p bytes : Nat) : Option (BitVec 64) :=
  if 8 ≤ bytes then readLE mem p 8
  else if 4 ≤ bytes then do
    let lo ← readLE mem p 4
    let hi ← readLE mem (p + (bytes - 4)) 4
    some (lo ||| (hi <<< ((bytes - 4) * 8)))
  else if 2 ≤ bytes then do
    let lo ← readLE mem p 2
    let hi ← readLE mem (p + (bytes - 2)) 2
    some (lo ||| (hi <<< ((bytes - 2) * 8)))
  else if bytes = 1 then readLE mem p 1
  else some 0

/-- All sixteen bytes. -/
def load16 (mem : List Byte) (p : Nat) : Option (Lanes Byte) :=
  if p + 16 ≤ mem.length then some (fun k => mem.getD (p + k) 0) else none

/-- `__load_first_of_16_bytes`, `algorithms.rs` 72-115; `load_first_of_16_bytes`, `load_first.rs` 326-345 (the x86 text
of the part up to eight bytes, 96-114, is that of `load_first_of_8_bytes`). -/
def loadFirst16 (tgt : Target) (mem : List Byte) (p first : Nat) : Option (Lanes Byte) :=
  if 16 ≤ first then load16 mem p
  else if 8 < first then load8to16 tgt mem p first
  else do
    let v ← loadFirst8 mem p first
    some (bytesOf v)

/-- `__load_first_u16_of_16_bytes`, `algorithms.rs` 127-169, as bytes. -/
def loadFirstU16 (mem : List Byte) (p first : Nat) : Option (Lanes Byte) :=
  if 8 ≤ first then load16 mem p
  else
    let bytes := first * 2
    if 8 < bytes then load8to16 .x86 mem p bytes
    else if bytes = 8 then do
      let v ← readLE mem p 8
      some (bytesOf v)
    else if 4 ≤ bytes then do
      let lo ← readLE mem p 4
      let hi ← readLE mem (p + (bytes - 4)) 4
      some (bytesOf (lo ||| (hi <<< ((bytes - 4) * 8))))
    else if 2 ≤ bytes then do
      let v ← readLE mem p 2
      some (bytesOf v)
    else some (fun _ => 0)

/-- Neon `u16x8`, `i16x8`, `load_first.rs` 116-138, as bytes; the byte count wraps (release builds). -/
def loadFirstU16Neon (mem : List Byte) (p first : Nat) : Option (Lanes Byte) :=
  loadFirst16 .neon mem p ((2 * first) % 2 ^ 64)

/-- Neon `u8x8`, `i8x8`, 25-40. -/
def loadFirst8Neon (mem : List Byte) (p first : Nat) : Option (Lanes Byte) := do
  let v ← loadFirst8 mem p first
  some (bytesOf v)

/-- Neon `u16x4`, 49-52, as bytes; the byte count wraps. -/
def loadFirstU16x4Neon (mem : List Byte) (p first : Nat) : Option (Lanes Byte) := do
  let v ← loadFirst8 mem p ((2 * first) % 2 ^ 64)
  some (bytesOf v)

section Elements

variable {T : Type} [Zero T]

/-- One element. -/
def read1 (mem : List T) (p : Nat) : Option T := mem[p]?

/-- `load_first_32x4`, 353-373: `vld1_u32` reads two elements, `vld1_lane_u32` and `read_unaligned` one. -/
def loadFirst32x4 (mem : List T) (p first : Nat) : Option (Lanes T) :=
  if 4 ≤ first then load mem p 4
  else if first = 3 then do
    let lo ← load mem p 2
    let hi ← read1 mem (p + 2)
    some (fun k => if k < 2 then lo k else if k = 2 then hi else 0)
  else if first = 2 then do
    let lo ← load mem p 2
    some (fun k => if k < 2 then lo k else 0)
  else if first = 1 then do
    let v ← read1 mem p
    some (lane0 v)
  else some (fun _ => 0)

/-- `load_first_32x2`, 381-395, `load_first_64x2`, 403-418. -/
def loadFirstx2 (mem : List T) (p first : Nat) : Option (Lanes T) :=
  if 2 ≤ first then load mem p 2
  else if first = 1 then do
    let v ← read1 mem p
    some (lane0 v)
  else some (fun _ => 0)

/-- A masked load of `w` lanes: `_mm256_maskload_*`, `_mm512_maskz_loadu_*`, `Emulated::load_simd_masked_logical`
(`emulated.rs` 113-123). -/
def maskLoad (w : Nat) (mask : Nat → Bool) (mem : List T) (p : Nat) : Option (Lanes T) :=
  if (List.range w).all (fun k => !mask k || decide (p + k < mem.length)) then
    some (fun k => if mask k then mem.getD (p + k) 0 else 0)
  else none

/-- `Emulated::load_simd_first`, `emulated.rs` 127-137. -/
def emulatedFirst (w : Nat) (mem : List T) (p first : Nat) : Option (Lanes T) :=
  maskLoad w (fun k => decide (k < first)) mem p

/-- `Doubled::load_simd_first`, `doubled.rs` 125-144. -/
def doubledFirst (half : Nat) (ld : List T → Nat → Nat → Option (Lanes T)) (mem : List T) (p first : Nat) :
    Option (Lanes T) := do
  let lo ← ld mem p first
  let hi ← ld mem (p + half) (first - half)
  some (fun k => if k < half then lo k else hi (k - half))

/-- A masked store of `w` lanes, lane by lane: `emulated.rs` 147-156, `_mm256_maskstore_*`, `_mm512_mask_storeu_*`. -/
def maskStore (w : Nat) (mask : Nat → Bool) (v : Lanes T) (mem : List T) (p : Nat) : Option (List T) :=
  (List.range w).foldlM (fun (m : List T) k =>
    if mask k then (if p + k < m.length then some (m.set (p + k) (v k)) else none) else some m) mem

/-- `Emulated::store_simd_first`, `emulated.rs` 159-165. -/
def emulatedStoreFirst (w : Nat) (v : Lanes T) (mem : List T) (p first : Nat) : Option (List T) :=
  maskStore w (fun k => decide (k < first)) v mem p

/-- `Doubled::store_simd_first`, `doubled.rs` 169-179. -/
def doubledStoreFirst (half : Nat) (st : Lanes T → List T → Nat → Nat → Option (List T)) (v : Lanes T) (mem : List T)
    (p first : Nat) : Option (List T) := do
  let m ← st v mem p first
  st (fun k => v (k + half)) m (p + half) (first - half)

end Elements

/-- `BitMask::keep_first`, `traits.rs` 813-829, for `N` lanes. -/
def bitMaskFirst (N first : Nat) : BitVec 64 :=
  let i := min first N
  if N = 64 ∧ i = 64 then BitVec.allOnes 64
  else (1#64 <<< i) - 1#64

/-- `BitMask::get_unchecked`, 832-838, on the representation truncated to `N` bits (`from_int`, `bitmask.rs` 61-107; the
representation of eight or more lanes has exactly `N` bits). -/
def bitMaskGet (N : Nat) (m : BitVec 64) (k : Nat) : Bool :=
  if N ≤ k then false else (m.setWidth N).getLsbD k

/-- `keep_first` of the x86 lane masks, `v3/masks.rs` 49-66, 175-196, 318-337, 513-529, 604-620: signed comparison of the
broadcast count with the lane numbers, in `e`-bit lanes. -/
def cmpFirst (e N first k : Nat) : Bool := (BitVec.ofNat e k).slt (BitVec.ofNat e (min first N))

/-- `keep_first` of `mask32x8`, 410-436: a table. -/
def tableFirst (first k : Nat) : Bool :=
  let table : List (List Bool) :=
    [[false, false, false, false, false, false, false, false],
     [true, false, false, false, false, false, false, false],
     [true, true, false, false, false, false, false, false],
     [true, true, true, false, false, false, false, false],
     [true, true, true, true, false, false, false, false],
     [true, true, true, true, true, false, false, false],
     [true, true, true, true, true, true, false, false],
     [true, true, true, true, true, true, true, false],
     [true, true, true, true, true, true, true, true]]
  (table.getD (min first 8) []).getD k false

/-- `keep_first` of the Neon masks, `aarch64/masks.rs` 162-168, 222-229, 293-298, 351-362, 409-414, 477-489, 589-601:
unsigned comparison. -/
def neonFirst (e N first k : Nat) : Bool := (BitVec.ofNat e k).ult (BitVec.ofNat e (min first N))

end Verif.Vec
