import Mathlib.Data.BitVec
import Mathlib.Order.Defs.LinearOrder

/-! # Lane operations and masks: model of `diskann-wide/src/{traits,bitmask,doubled,reference}.rs` and
`diskann-wide/src/arch/x86_64/{macros.rs,v3/*.rs}`

A register is a function from lane numbers to lane values; only the lanes below the width are meaningful. Every intrinsic
the code calls is a definition with the meaning Intel documents for it; bytes are numbered from the least significant one, so
a register of 32-bit lanes seen as bytes has byte `4 * j + k` as byte `k` of lane `j`. A bit mask `BitMask<N>` is the natural
number its integer holds. Floating-point values are elements of a linear order with `none` for NaN; the two zeros are one
value. The AVX-512 and Neon wrappers are not modelled. -/

namespace Verif.Vec.Lane

/-- A register: lane number to lane value. -/
abbrev Reg (α : Type) := Nat → α

section intrinsics

variable {w : Nat}

/-- `_mm*_cmpeq_epi*`: all ones where equal. -/
def cmpeq (a b : Reg (BitVec w)) : Reg (BitVec w) := fun i => if a i = b i then BitVec.allOnes w else 0

/-- `_mm*_cmpgt_epi*`: all ones where the first is greater, as signed numbers. -/
def cmpgt (a b : Reg (BitVec w)) : Reg (BitVec w) := fun i => if (b i).toInt < (a i).toInt then BitVec.allOnes w else 0

/-- `_mm*_max_epu*`. -/
def maxEpu (a b : Reg (BitVec w)) : Reg (BitVec w) := fun i => if (a i).toNat ≤ (b i).toNat then b i else a i

/-- `_mm*_min_epu*`. -/
def minEpu (a b : Reg (BitVec w)) : Reg (BitVec w) := fun i => if (a i).toNat ≤ (b i).toNat then a i else b i

/-- `_mm*_min_epi*`. -/
def minEpi (a b : Reg (BitVec w)) : Reg (BitVec w) := fun i => if (a i).toInt ≤ (b i).toInt then a i else b i

/-- `_mm*_xor_si*`. -/
def xorSi (a b : Reg (BitVec w)) : Reg (BitVec w) := fun i => a i ^^^ b i

/-- `_mm*_and_si*`. -/
def andSi (a b : Reg (BitVec w)) : Reg (BitVec w) := fun i => a i &&& b i

/-- `_mm*_set1_epi*`. -/
def set1 {α : Type} (x : α) : Reg α := fun _ => x

/-- `all_ones`. -/
def allOnes : Reg (BitVec w) := fun _ => BitVec.allOnes w

/-- The byte `k` of a number. -/
def byteOf (x : Nat) (k : Nat) : BitVec 8 := BitVec.ofNat 8 (x / 2 ^ (8 * k))

/-- `_mm_set_epi64x` and `_mm256_set_epi64x` seen as bytes; the arguments from the lowest. -/
def setEpi64 (l : List Nat) : Reg (BitVec 8) := fun i => byteOf (l.getD (i / 8) 0) (i % 8)

/-- `_mm_cvtsi32_si128` seen as bytes: the number in the four lowest bytes, zeros above. -/
def cvtsi32 (x : Nat) : Reg (BitVec 8) := fun i => if i < 4 then byteOf x i else 0

/-- `_mm256_set1_epi32` seen as bytes. -/
def set1Epi32Bytes (x : Nat) : Reg (BitVec 8) := fun i => byteOf x (i % 4)

/-- `_mm_shuffle_epi8` and `_mm256_shuffle_epi8`: byte `i` is the byte of the same 128-bit half whose number is in the low
four bits of the control byte, or zero if the control byte is negative. -/
def shuffleEpi8 {α : Type} (zero : α) (a : Reg α) (c : Reg (BitVec 8)) : Reg α :=
  fun i => if (c i).msb then zero else a (16 * (i / 16) + (c i).toNat % 16)

/-- `_mm_movemask_epi8`, `_mm_movemask_ps`, `_mm256_movemask_pd` and the like on `n` lanes: bit `i` is the highest bit of lane
`i`. -/
def movemask (n : Nat) (a : Reg (BitVec w)) : Nat :=
  match n with
  | 0 => 0
  | n + 1 => movemask n a ||| (if (a n).msb then 2 ^ n else 0)

/-- `_mm256_permutevar8x32_epi32` on bytes: 32-bit group `j` is the group whose number is in the low three bits. -/
def permutevar8x32 {α : Type} (a : Reg α) (idx : List Nat) : Reg α :=
  fun i => a (4 * ((idx.getD (i / 4) 0) % 8) + i % 4)

/-- `_mm256_permute4x64_epi64` on bytes: 64-bit group `j` is the group whose number is in bits `2j` and `2j+1`. -/
def permute4x64 {α : Type} (a : Reg α) (imm : Nat) : Reg α :=
  fun i => a (8 * (imm / 2 ^ (2 * (i / 8)) % 4) + i % 8)

/-- `_mm*_blendv_*`: the second where the highest bit of the mask is set. -/
def blendv {α : Type} (a b : Reg α) (m : Reg (BitVec w)) : Reg α := fun i => if (m i).msb then b i else a i

/-- A signed 16-bit number clamped to a byte. -/
def clampByte (x : BitVec 16) : BitVec 8 := if x.toInt < 0 then 0 else if 255 < x.toInt then 255 else x.truncate 8

/-- `_mm_packus_epi16`: the lanes of the first, then those of the second, clamped to bytes. -/
def packus (a b : Reg (BitVec 16)) : Reg (BitVec 8) := fun i => if i < 8 then clampByte (a i) else clampByte (b (i - 8))

/-- `_mm256_madd_epi16`: products of signed 16-bit lanes, added in pairs. -/
def maddEpi16 (a b : Reg (BitVec 16)) : Reg (BitVec 32) :=
  fun j => (a (2 * j)).signExtend 32 * (b (2 * j)).signExtend 32
    + (a (2 * j + 1)).signExtend 32 * (b (2 * j + 1)).signExtend 32

/-- `_mm_movehl_ps(a, b)`: the upper half of the second, then the upper half of the first. -/
def movehl {α : Type} (a b : Reg α) : Reg α := fun i => if i < 2 then b (2 + i) else a i

/-- `_mm_shuffle_epi32(a, imm)`, and `_mm_shuffle_ps(a, a, imm)` with both arguments the same: lane `i` is the lane in bits `2i`
and `2i+1`. -/
def shuffle32 {α : Type} (a : Reg α) (imm : Nat) : Reg α := fun i => a (imm / 2 ^ (2 * i) % 4)

/-- `_mm_unpackhi_epi64(a, b)`. -/
def unpackhi64 {α : Type} (a b : Reg α) : Reg α := fun i => if i = 0 then a 1 else b 1

/-- `_mm256_extracti128_si256(x, 1)` for registers of `2 * h` lanes; the cast to 128 bits keeps the lower lanes. -/
def extractHi {α : Type} (h : Nat) (x : Reg α) : Reg α := fun i => x (h + i)

/-- `_mm256_set_m128i(hi, lo)` for halves of `h` lanes, `join`. -/
def setHalves {α : Type} (h : Nat) (lo hi : Reg α) : Reg α := fun i => if i < h then lo i else hi (i - h)

/-- `_mm256_srlv_epi*`, `_mm256_sllv_epi*`, `_mm256_srav_epi*`: counts are unsigned; past the width zeros or the sign. -/
def srlv (a b : Reg (BitVec w)) : Reg (BitVec w) := fun i => if (b i).toNat < w then a i >>> (b i).toNat else 0

@[inherit_doc srlv]
def sllv (a b : Reg (BitVec w)) : Reg (BitVec w) := fun i => if (b i).toNat < w then a i <<< (b i).toNat else 0

@[inherit_doc srlv]
def srav (a b : Reg (BitVec w)) : Reg (BitVec w) :=
  fun i => if (b i).toNat < w then (a i).sshiftRight (b i).toNat else if (a i).msb then BitVec.allOnes w else 0

/-- `_mm*_min_ps(a, b)` on one lane: the first if it is smaller, the second otherwise; with a NaN the second. -/
def minPs {K : Type} [LinearOrder K] (a b : Option K) : Option K :=
  match a, b with
  | some x, some y => if x < y then some x else some y
  | _, b => b

/-- `_mm*_max_ps(a, b)` on one lane. -/
def maxPs {K : Type} [LinearOrder K] (a b : Option K) : Option K :=
  match a, b with
  | some x, some y => if y < x then some x else some y
  | _, b => b

end intrinsics

section wrappers

variable {w : Nat}

/-- `eq_simd`, v3/u8x16_.rs 184-189, i32x8_.rs 110-114. -/
def eqSimd (a b : Reg (BitVec w)) : Reg (BitVec w) := cmpeq a b

/-- `ne_simd`, v3/u8x16_.rs 191-196, i32x8_.rs 116-122. -/
def neSimd (a b : Reg (BitVec w)) : Reg (BitVec w) := xorSi (cmpeq a b) allOnes

/-- `lt_simd` of unsigned lanes, v3/u8x16_.rs 164-174, u32x4_.rs 113-120. -/
def ltUnsigned (a b : Reg (BitVec w)) : Reg (BitVec w) := xorSi (cmpeq a (maxEpu a b)) allOnes

/-- `le_simd` of unsigned lanes, v3/u8x16_.rs 176-181, u32x4_.rs 122-127. -/
def leUnsigned (a b : Reg (BitVec w)) : Reg (BitVec w) := cmpeq a (minEpu a b)

/-- `lt_simd` of signed lanes, v3/i8x16_.rs 164-167, i32x8_.rs 126-130. -/
def ltSigned (a b : Reg (BitVec w)) : Reg (BitVec w) := cmpgt b a

/-- `le_simd` of signed lanes, v3/i8x16_.rs 169-174, i32x8_.rs 132-137. -/
def leSigned (a b : Reg (BitVec w)) : Reg (BitVec w) := cmpeq a (minEpi a b)

/-- `select`, v3/i32x8_.rs 167-180. -/
def select {α : Type} (m : Reg (BitVec w)) (x y : Reg α) : Reg α := blendv y x m

/-- `Mul for u8x16`, v3/u8x16_.rs 34-55: 16-bit products of the zero-extended lanes, the low byte, both halves packed. -/
def mulU8 (a b : Reg (BitVec 8)) : Reg (BitVec 8) :=
  let p : Reg (BitVec 16) := fun i => ((a i).zeroExtend 16 * (b i).zeroExtend 16) &&& 0x00ff#16
  packus p (extractHi 8 p)

/-- `Mul for i8x16`, v3/i8x16_.rs 38-58: the same with sign-extended lanes. -/
def mulI8 (a b : Reg (BitVec 8)) : Reg (BitVec 8) :=
  let p : Reg (BitVec 16) := fun i => ((a i).signExtend 16 * (b i).signExtend 16) &&& 0x00ff#16
  packus p (extractHi 8 p)

/-- `Mul for u8x32`, v3/u8x32_.rs 46-54: the halves separately. -/
def mulU8x32 (a b : Reg (BitVec 8)) : Reg (BitVec 8) :=
  setHalves 16 (mulU8 a b) (mulU8 (extractHi 16 a) (extractHi 16 b))

/-- `Shr` and `Shl` of 32- and 64-bit lanes go to the variable shifts; `expected_shr_` of unsigned scalars, reference.rs 15-22:
zero from the width on. -/
def refShrU (a b : BitVec w) : BitVec w := if w ≤ b.toNat then 0 else a >>> b.toNat

/-- `expected_shl_` of unsigned scalars, reference.rs 24-31. -/
def refShlU (a b : BitVec w) : BitVec w := if w ≤ b.toNat then 0 else a <<< b.toNat

/-- `expected_shr_` of signed scalars, reference.rs 44-51: a negative or too large count leaves only the sign. -/
def refShrS (a b : BitVec w) : BitVec w :=
  if b.toInt < 0 ∨ (w : Int) ≤ b.toInt then (if a.toInt < 0 then BitVec.allOnes w else 0) else a.sshiftRight b.toInt.toNat

/-- `expected_shl_` of signed scalars, reference.rs 53-60. -/
def refShlS (a b : BitVec w) : BitVec w :=
  if b.toInt < 0 ∨ (w : Int) ≤ b.toInt then 0 else a <<< b.toInt.toNat

/-- `min_simd_standard`, v3/f32x8_.rs 66-72, f32x4_.rs 64-70, on one lane: the arguments swapped, then `rhs` where `self` is NaN. -/
def minStandard {K : Type} [LinearOrder K] (a b : Option K) : Option K := if a.isNone then b else minPs b a

/-- `max_simd_standard`, v3/f32x8_.rs 80-86. -/
def maxStandard {K : Type} [LinearOrder K] (a b : Option K) : Option K := if a.isNone then b else maxPs b a

/-- `tree_reduce` of `2 ^ k` values, reference.rs 290-354. -/
def treeReduce {α : Type} (op : α → α → α) : Nat → Reg α → α
  | 0, x => x 0
  | k + 1, x => treeReduce op k (fun i => op (x i) (x (2 ^ k + i)))

/-- `sum_tree` of four 32-bit lanes, v3/u32x4_.rs 130-150. -/
def sumTree4 {α : Type} (add : α → α → α) (x : Reg α) : α :=
  let sumDual : Reg α := fun i => add (x i) (movehl x x i)
  add (sumDual 0) (shuffle32 sumDual 0x1 0)

/-- `sum_tree` of eight 32-bit lanes, v3/f32x8_.rs 185-213, i32x8_.rs 140-165. -/
def sumTree8 {α : Type} (add : α → α → α) (x : Reg α) : α :=
  sumTree4 add (fun i => add (x i) (extractHi 4 x i))

/-- `sum_tree` of two 64-bit lanes, v3/u64x2_.rs 139-150. -/
def sumTree2 {α : Type} (add : α → α → α) (x : Reg α) : α := add (x 0) (unpackhi64 x x 0)

/-- `sum_tree` of four 64-bit lanes, v3/u64x4_.rs 147-161. -/
def sumTree4x64 {α : Type} (add : α → α → α) (x : Reg α) : α :=
  sumTree2 add (fun i => add (x i) (extractHi 2 x i))

/-- `sum_tree` of `Doubled`, doubled.rs 305-314: both parts added, then the sum of a part; parts of `h` lanes. -/
def sumTreeDoubled {α : Type} (h : Nat) (part : Reg α → α) (add : α → α → α) (x : Reg α) : α :=
  part (fun i => add (x i) (x (h + i)))

/-- The control bytes of `deinterleave`, v3/i32x8_.rs 225-226, 236. -/
def deinterleaveControl : Reg (BitVec 8) :=
  setEpi64 [0x0D0C090805040100, 0x0F0E0B0A07060302, 0x0D0C090805040100, 0x0F0E0B0A07060302]

/-- `deinterleave`, v3/i32x8_.rs 223-240. -/
def deinterleave (v : Reg (BitVec 8)) : Reg (BitVec 8) :=
  permute4x64 (shuffleEpi8 0 v deinterleaveControl) 0b11011000

/-- `SIMDDotProduct<i16x16> for i32x8`, v3/i32x8_.rs 186-195. -/
def dotI16 (acc : Reg (BitVec 32)) (l r : Reg (BitVec 16)) : Reg (BitVec 32) := fun j => acc j + maddEpi16 l r j

/-- `SIMDDotProduct<u8x32, i8x32> for i32x8`, v3/i32x8_.rs 242-254. -/
def dotU8I8 (acc : Reg (BitVec 32)) (l r : Reg (BitVec 8)) : Reg (BitVec 32) :=
  let l := deinterleave l
  let r := deinterleave r
  dotI16 (dotI16 acc (fun i => (l i).zeroExtend 16) (fun i => (r i).signExtend 16))
    (fun i => (extractHi 16 l i).zeroExtend 16) (fun i => (extractHi 16 r i).signExtend 16)

/-- The interleaving and deinterleaving controls of 8-bit lanes, v3/u8x32_.rs 40-45. -/
def interleave8 : List Nat := [0, 8, 1, 9, 2, 10, 3, 11, 4, 12, 5, 13, 6, 14, 7, 15]

@[inherit_doc interleave8]
def deinterleave8 : List Nat := [0, 2, 4, 6, 8, 10, 12, 14, 1, 3, 5, 7, 9, 11, 13, 15]

/-- The controls of 16-bit lanes, v3/i16x16_.rs 40-45. -/
def interleave16 : List Nat := [0, 1, 8, 9, 2, 3, 10, 11, 4, 5, 12, 13, 6, 7, 14, 15]

@[inherit_doc interleave16]
def deinterleave16 : List Nat := [0, 1, 4, 5, 8, 9, 12, 13, 2, 3, 6, 7, 10, 11, 14, 15]

/-- `_mm256_set_m128i(mask128, mask128)` of `_mm_setr_epi8`. -/
def twice (l : List Nat) : Reg (BitVec 8) := fun i => BitVec.ofNat 8 (l.getD (i % 16) 0)

/-- `zip_flat` on the bytes of the register, macros.rs 350-362. -/
def zipFlat {α : Type} (zero : α) (control : List Nat) (x : Reg α) : Reg α :=
  shuffleEpi8 zero (permutevar8x32 x [0, 1, 4, 5, 2, 3, 6, 7]) (twice control)

/-- `unzip_flat` on the bytes of the register, macros.rs 364-376. -/
def unzipFlat {α : Type} (zero : α) (control : List Nat) (x : Reg α) : Reg α :=
  permutevar8x32 (shuffleEpi8 zero x (twice control)) [0, 1, 4, 5, 2, 3, 6, 7]

/-- `zip_flat` of 32-bit lanes, macros.rs 403-411. -/
def zipFlat32 {α : Type} (x : Reg α) : Reg α := permutevar8x32 x [0, 4, 1, 5, 2, 6, 3, 7]

/-- `unzip_flat` of 32-bit lanes, macros.rs 413-421. -/
def unzipFlat32 {α : Type} (x : Reg α) : Reg α := permutevar8x32 x [0, 2, 4, 6, 1, 3, 5, 7]

end wrappers

section masks

/-- The bits of the integer behind `BitMask<N>`: 8, 16, 32 or 64, traits.rs 898-904. -/
def reprBits (n : Nat) : Nat := if n ≤ 8 then 8 else n

/-- `from_int`, bitmask.rs 62-109: the low `N` bits. -/
def fromInt (n v : Nat) : Nat := v % 2 ^ n

/-- `1 << i` for `u64`: the count modulo 64, as in a release build. -/
def shlOne (i : Nat) : Nat := 2 ^ (i % 64)

/-- `keep_first` of a bit mask, traits.rs 812-828: `(1 << i) - 1` in 64 bits, cut to the integer. -/
def bitsKeepFirst (n i : Nat) : Nat :=
  let i := min i n
  if n = 64 ∧ i = 64 then fromInt n (2 ^ 64 - 1) else fromInt n ((shlOne i - 1) % 2 ^ reprBits n)

/-- `get_unchecked` of a bit mask, traits.rs 830-837. -/
def bitsGet (n v i : Nat) : Bool := if n ≤ i then false else v / 2 ^ i % 2 == 1

/-- `trailing_zeros` of a `width`-bit number. -/
def trailingZeros : Nat → Nat → Nat
  | 0, _ => 0
  | width + 1, v => if v % 2 = 1 then 0 else trailingZeros width (v / 2) + 1

/-- `first` of a bit mask, traits.rs 839-847. -/
def bitsFirst (n v : Nat) : Option Nat :=
  let count := trailingZeros (reprBits n) v
  if n ≤ count then none else some count

/-- The loop of `from_fn`, traits.rs 855-859. -/
def fromFnLoop (f : Nat → Bool) : Nat → Nat
  | 0 => 0
  | n + 1 => fromFnLoop f n ||| (if f n then 2 ^ n else 0)

/-- `from_fn` of a bit mask, traits.rs 850-861. -/
def bitsFromFn (n : Nat) (f : Nat → Bool) : Nat := fromInt n (fromFnLoop f n)

/-- `any` of a bit mask, traits.rs 863-866. -/
def bitsAny (v : Nat) : Bool := v != 0

/-- `all` of a bit mask, traits.rs 868-878. -/
def bitsAll (n v : Nat) : Bool := if n = 64 then v == 2 ^ 64 - 1 else v == shlOne n - 1

/-- `count_ones` of a `width`-bit number. -/
def countOnes : Nat → Nat → Nat
  | 0, _ => 0
  | width + 1, v => v % 2 + countOnes width (v / 2)

/-- `count` of a bit mask, traits.rs 880-885. -/
def bitsCount (n v : Nat) : Nat := countOnes (reprBits n) v

/-- `split` of a bit mask into halves of `h` lanes, bitmask.rs 115-121. -/
def bitsSplit (h v : Nat) : Nat × Nat :=
  (fromInt h (v &&& (2 ^ h - 1)), fromInt h (v / 2 ^ h &&& (2 ^ h - 1)))

/-- `join` of two bit masks of `h` lanes, bitmask.rs 123-128; `hi << h` in the integer of the joined mask. -/
def bitsJoin (h lo hi : Nat) : Nat := (hi * 2 ^ h) % 2 ^ reprBits (2 * h) ||| lo

/-- `From<BitMask<16>> for mask8x16`, v3/masks.rs 94-129. -/
def mask8x16FromBits (v : Nat) : Reg (BitVec 8) :=
  let selector := setEpi64 [0x8040201008040201, 0x8040201008040201]
  cmpeq (andSi (shuffleEpi8 0 (cvtsi32 v) (setEpi64 [0, 0x0101010101010101])) selector) selector

/-- `From<BitMask<32>> for mask8x32`, v3/masks.rs 230-274. -/
def mask8x32FromBits (v : Nat) : Reg (BitVec 8) :=
  let selector := setEpi64 [0x8040201008040201, 0x8040201008040201, 0x8040201008040201, 0x8040201008040201]
  cmpeq (andSi (shuffleEpi8 0 (set1Epi32Bytes v)
    (setEpi64 [0, 0x0101010101010101, 0x0202020202020202, 0x0303030303030303])) selector) selector

/-- `From<BitMask<N>>` of the 32- and 64-bit masks, v3/masks.rs 349-364, 449-464, 543-558, 634-649: the bit of each lane of the
broadcast integer, compared with zero as signed numbers. -/
def maskFromBits (w : Nat) (cmp : List Nat) (v : Nat) : Reg (BitVec w) :=
  cmpgt (andSi (set1 (BitVec.ofNat w v)) (fun i => BitVec.ofNat w (cmp.getD i 0))) (set1 0)

/-- `keep_first` of all but `mask32x8`, v3/masks.rs 48-67, 174-196, 317-336, 511-530, 602-621. -/
def maskKeepFirst (w lanes i : Nat) : Reg (BitVec w) :=
  cmpgt (set1 (BitVec.ofNat w (min i lanes))) (fun k => BitVec.ofNat w k)

/-- `MASKS` of `keep_first` of `mask32x8`, v3/masks.rs 413-423. -/
def keepTable : List (List (BitVec 32)) :=
  let f : BitVec 32 := BitVec.allOnes 32
  [[0, 0, 0, 0, 0, 0, 0, 0], [f, 0, 0, 0, 0, 0, 0, 0], [f, f, 0, 0, 0, 0, 0, 0], [f, f, f, 0, 0, 0, 0, 0],
   [f, f, f, f, 0, 0, 0, 0], [f, f, f, f, f, 0, 0, 0], [f, f, f, f, f, f, 0, 0], [f, f, f, f, f, f, f, 0],
   [f, f, f, f, f, f, f, f]]

/-- `keep_first` of `mask32x8`, v3/masks.rs 409-436. A row past the table is a panic, `none`. -/
def mask32x8KeepFirst (i : Nat) : Option (Reg (BitVec 32)) :=
  (keepTable[min i 8]?).map (fun row k => row.getD k 0)

/-- `bitmask()`: `from_int` of the moved mask, v3/masks.rs 131-143, 276-286, 366-378, 466-477. -/
def toBits {w : Nat} (lanes : Nat) (m : Reg (BitVec w)) : Nat := fromInt lanes (movemask lanes m)

/-- `get_unchecked` of a `Doubled` mask over masks of `h` lanes, doubled.rs 421-428. -/
def doubledGet (h : Nat) (lo hi : Nat → Bool) (i : Nat) : Bool := if i < h then lo i else hi (i - h)

/-- `keep_first` of a `Doubled` mask, doubled.rs 430-435: the arguments given to both halves. -/
def doubledKeepFirst {M : Type} (h : Nat) (keep : Nat → M) (i : Nat) : M × M := (keep i, keep (i - h))

end masks

end Verif.Vec.Lane
