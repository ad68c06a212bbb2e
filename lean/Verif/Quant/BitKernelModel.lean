import Verif.Quant.BitsModel

/-! # Distances between bit-packed slices: model of `diskann-quantization/src/bits/distances.rs`

Memory is a list of bytes; a read past the end of a slice is `none`. Machine words are `BitVec`s: additions and
multiplications wrap, as the vector instructions do and as scalar `+` does in a release build (a debug build panics
instead; not modelled). A register is a function from lane numbers to words; the number of lanes appears where the
lanes are summed. The vector instructions named in the comments (`_mm256_madd_epi16`, `_mm512_dpbusd_epi32`,
`_mm256_maddubs_epi16`, `_mm256_sad_epu8`, `_mm256_permutevar_ps`) and the wrappers of `diskann-wide` around them are
modelled by their documented lane-wise meaning. -/

namespace Verif.Quant

abbrev Reg (w : Nat) := Nat → BitVec w

inductive LenError
  | unequal
deriving DecidableEq, Repr

/-- Load of the `n` bytes at byte offset `off`, all further lanes zero (`load_simd` for a full register,
`load_simd_first` for `n` lanes, `read_unaligned` for a single word, `load_one` ... `load_four`, lines 174-230). -/
def loadBytes (data : List Byte) (off n : Nat) : Option (Reg 8) :=
  if off + n ≤ data.length then some (fun k => if k < n then data.getD (off + k) 0 else 0) else none

/-- `reinterpret_simd` of bytes as little-endian 32-bit words. -/
def asU32 (r : Reg 8) : Reg 32 := fun l => r (4 * l + 3) ++ r (4 * l + 2) ++ r (4 * l + 1) ++ r (4 * l)

/-- `reinterpret_simd` of bytes as little-endian 64-bit words. -/
def asU64 (r : Reg 8) : Reg 64 := fun l => asU32 r (2 * l + 1) ++ asU32 r (2 * l)

/-- `reinterpret_simd` of 32-bit words as 16-bit words. -/
def asI16 (r : Reg 32) : Reg 16 := fun k => (r (k / 2)).extractLsb' (16 * (k % 2)) 16

/-- `reinterpret_simd` of 32-bit words as bytes. -/
def asU8 (r : Reg 32) : Reg 8 := fun k => (r (k / 4)).extractLsb' (8 * (k % 4)) 8

/-- `dot_simd` on signed 16-bit lanes (`_mm256_madd_epi16`, `_mm512_madd_epi16`), accumulated. -/
def madd (acc : Reg 32) (a b : Reg 16) : Reg 32 := fun l =>
  acc l + ((a (2 * l)).signExtend 32 * (b (2 * l)).signExtend 32
    + (a (2 * l + 1)).signExtend 32 * (b (2 * l + 1)).signExtend 32)

/-- `dot_simd` on unsigned times signed bytes (`_mm512_dpbusd_epi32`). -/
def dpbusd (acc : Reg 32) (a b : Reg 8) : Reg 32 := fun l =>
  acc l + ((a (4 * l)).setWidth 32 * (b (4 * l)).signExtend 32
    + (a (4 * l + 1)).setWidth 32 * (b (4 * l + 1)).signExtend 32
    + (a (4 * l + 2)).setWidth 32 * (b (4 * l + 2)).signExtend 32
    + (a (4 * l + 3)).setWidth 32 * (b (4 * l + 3)).signExtend 32)

/-- `sum_tree`. -/
def sumTree (lanes : Nat) (r : Reg 32) : BitVec 32 := ((List.range lanes).map r).sum

/-! ## One-bit slices: `bitvector_op`, 244-372 -/

/-- `count_ones`. -/
def popcount {w : Nat} (v : BitVec w) : BitVec 32 := BitVec.ofNat 32 ((List.range w).filter (v.getLsbD ·)).length

/-- Operator of `SquaredL2` and of `Hamming`, 261-284. -/
def xorOp {w : Nat} (x y : BitVec w) : BitVec 32 := popcount (x ^^^ y)

/-- Operator of `InnerProduct`, 286-301. -/
def andOp {w : Nat} (x y : BitVec w) : BitVec 32 := popcount (x &&& y)

/-- The loop over 64-bit words, 325-342. -/
def bitWords (op : BitVec 64 → BitVec 64 → BitVec 32) (x y : List Byte) (blocks : Nat) :
    Nat → Nat → BitVec 32 → Option (Nat × BitVec 32)
  | 0, _, _ => none
  | fuel + 1, i, s =>
    if i < blocks then do
      let vx ← loadBytes x (8 * i) 8
      let vy ← loadBytes y (8 * i) 8
      bitWords op x y blocks fuel (i + 1) (s + op (asU64 vx 0) (asU64 vy 0))
    else some (i, s)

/-- The loop over bytes, 346-359. -/
def bitBytes (op : Byte → Byte → BitVec 32) (x y : List Byte) (blocks : Nat) :
    Nat → Nat → BitVec 32 → Option (Nat × BitVec 32)
  | 0, _, _ => none
  | fuel + 1, i, s =>
    if i < blocks then do
      let vx ← x[i]?
      let vy ← y[i]?
      bitBytes op x y blocks fuel (i + 1) (s + op vx vy)
    else some (i, s)

/-- `bitvector_op`, 303-372. -/
def bitvectorOp (op : {w : Nat} → BitVec w → BitVec w → BitVec 32) (x y : BitSlice) :
    Option (Except LenError (BitVec 32)) :=
  if x.count ≠ y.count then some (.error .unequal)
  else do
    let len := x.count
    let (i, s) ← bitWords op x.data y.data (len / 64) (len / 64 + 1) 0 0
    let i := i * 8
    let (i, s) ← bitBytes op x.data y.data (len / 8) (len / 8 + 1) i s
    if i * 8 ≠ len then do
      let vx ← x.data[i]?
      let vy ← y.data[i]?
      let m : Byte := (0x01#8 <<< (len - 8 * i)) - 1
      some (.ok (s + op (vx &&& m) (vy &&& m)))
    else some (.ok s)

/-! ## Scalar loops over elements -/

/-- `(ix - iy)²` in `i32`, then `as u32`. -/
def sqTerm (a b : Byte) : BitVec 32 := (a.setWidth 32 - b.setWidth 32) * (a.setWidth 32 - b.setWidth 32)

/-- `ix * iy` in `u32`. -/
def ipTerm (a b : Byte) : BitVec 32 := a.setWidth 32 * b.setWidth 32

/-- A loop over the elements with the given indices, read with `get_unchecked` (fallback loops 541-552, 876-887,
1251-1262, 1549-1560, 1772-1783, 1946-1956, 2086-2096 and tails 694-703, 1130-1140, 1392-1399). -/
def elemSum (Nx Ny : Nat) (term : Byte → Byte → BitVec 32) (x y : List Byte) : List Nat → Option (BitVec 32)
  | [] => some 0
  | i :: is => do
    let a ← denseUnpack Nx x i
    let b ← denseUnpack Ny y i
    let s ← elemSum Nx Ny term x y is
    some (term a b + s)

/-- `impl_fallback_l2!` 908-946 and `impl_fallback_ip!` 1581-1621: element widths 2 to 7, and 8 against 4, 2, 1. -/
def scalarKernel (Nx Ny : Nat) (term : Byte → Byte → BitVec 32) (x y : BitSlice) :
    Option (Except LenError (BitVec 32)) :=
  if x.count ≠ y.count then some (.error .unequal)
  else (elemSum Nx Ny term x.data y.data (List.range x.count)).map .ok

/-! ## Four- and two-bit slices on AVX2 and AVX-512 -/

/-- One mask-and-accumulate group on 16-bit lanes for the squared distance, 476-480. -/
def l2Step (mask : BitVec 32) (shift : Nat) (vx vy acc : Reg 32) : Reg 32 :=
  let wx := asI16 (fun l => (vx l >>> shift) &&& mask)
  let wy := asI16 (fun l => (vy l >>> shift) &&& mask)
  let d : Reg 16 := fun k => wx k - wy k
  madd acc d d

/-- The same for the inner product, 1192-1194. -/
def ipStep (mask : BitVec 32) (shift : Nat) (vx vy acc : Reg 32) : Reg 32 :=
  madd acc (asI16 (fun l => (vx l >>> shift) &&& mask)) (asI16 (fun l => (vy l >>> shift) &&& mask))

/-- The same on bytes, 1062-1064. -/
def vnniStep (mask : BitVec 32) (shift : Nat) (vx vy acc : Reg 32) : Reg 32 :=
  dpbusd acc (asU8 (fun l => (vx l >>> shift) &&& mask)) (asU8 (fun l => (vy l >>> shift) &&& mask))

/-- Constants of one kernel: elements per 32-bit word, lanes of 32 bits, the operation, and for each group in order
the accumulator it uses and its shift. -/
structure PackedKernel where
  bits : Nat
  perWord : Nat
  lanes : Nat
  step : Nat → Reg 32 → Reg 32 → Reg 32 → Reg 32
  plan : List (Nat × Nat)
  term : Byte → Byte → BitVec 32

/-- All groups of one pair of loaded registers. -/
def PackedKernel.groups (k : PackedKernel) (vx vy : Reg 32) (acc : Nat → Reg 32) : Nat → Reg 32 :=
  k.plan.foldl (fun acc p => fun q => if q = p.1 then k.step p.2 vx vy (acc p.1) else acc q) acc

/-- `((s0 + s1) + (s2 + s3)).sum_tree()` (unused accumulators stay zero). -/
def PackedKernel.total (k : PackedKernel) (acc : Nat → Reg 32) : BitVec 32 :=
  sumTree k.lanes (fun l => (acc 0 l + acc 1 l) + (acc 2 l + acc 3 l))

/-- The main loop `while i + lanes < blocks`, 461-500 (and 609-642, 757-820, 1047-1076, 1179-1211, 1320-1346,
1446-1501). -/
def PackedKernel.loop (k : PackedKernel) (x y : List Byte) (blocks : Nat) :
    Nat → Nat → (Nat → Reg 32) → Option (Nat × (Nat → Reg 32))
  | 0, _, _ => none
  | fuel + 1, i, acc =>
    if i + k.lanes < blocks then do
      let vx ← loadBytes x (4 * i) (4 * k.lanes)
      let vy ← loadBytes y (4 * i) (4 * k.lanes)
      k.loop x y blocks fuel (i + k.lanes) (k.groups (asU32 vx) (asU32 vy) acc)
    else some (i, acc)

/-- AVX2: the last words are loaded with `load_simd_first`, then the elements after the last full word one by one.
`SquaredL2` on 4 bits 431-559 and 2 bits 727-895, `InnerProduct` on 4 bits 1150-1270 and 2 bits 1416-1567. -/
def PackedKernel.runV3 (k : PackedKernel) (x y : BitSlice) : Option (Except LenError (BitVec 32)) :=
  if x.count ≠ y.count then some (.error .unequal)
  else do
    let len := x.count
    let blocks := len / k.perWord
    let (i, s) ←
      if 0 < blocks then do
        let (i, acc) ← k.loop x.data y.data blocks (blocks + 1) 0 (fun _ _ => 0)
        let remainder := blocks - i
        let vx ← loadBytes x.data (4 * i) (4 * remainder)
        let vy ← loadBytes y.data (4 * i) (4 * remainder)
        some (i + remainder, k.total (k.groups (asU32 vx) (asU32 vy) acc))
      else some (0, 0)
    let i := i * k.perWord
    if i ≠ len then do
      let t ← elemSum k.bits k.bits k.term x.data y.data (List.range' i (len - i))
      some (.ok (s + t))
    else some (.ok s)

/-- AVX-512: the last bytes are loaded with `load_simd_first`, then at most `maxTail` elements one by one.
`SquaredL2` on 4 bits 575-708, `InnerProduct` on 2 bits 1015-1137 and 4 bits 1288-1402. `perByte` elements per byte;
`len / perByte - 4 * i` must not underflow. (The four-bit kernels skip a load of zero bytes; adding zero lanes is the
same.) -/
def PackedKernel.runV4 (k : PackedKernel) (perByte maxTail : Nat) (x y : BitSlice) :
    Option (Except LenError (BitVec 32)) :=
  if x.count ≠ y.count then some (.error .unequal)
  else do
    let len := x.count
    let blocks := (len + k.perWord - 1) / k.perWord
    let (i, s) ←
      if 0 < blocks then do
        let (i, acc) ← k.loop x.data y.data blocks (blocks + 1) 0 (fun _ _ => 0)
        if len / perByte < 4 * i then none
        else do
          let remainder := len / perByte - 4 * i
          if remainder > 4 * k.lanes then none
          else do
            let vx ← loadBytes x.data (4 * i) remainder
            let vy ← loadBytes y.data (4 * i) remainder
            some (4 * i + remainder, k.total (k.groups (asU32 vx) (asU32 vy) acc))
      else some (0, 0)
    let i := i * perByte
    if i ≠ len then do
      let t ← elemSum k.bits k.bits k.term x.data y.data (List.range' i (min (len - i) maxTail))
      some (.ok (s + t))
    else some (.ok s)

/-- 431-559. -/
def l2x4v3 : PackedKernel := ⟨4, 8, 8, l2Step 0x000f000f#32, [(0, 0), (1, 4), (2, 8), (3, 12)], sqTerm⟩
/-- 575-708. -/
def l2x4v4 : PackedKernel := ⟨4, 8, 16, l2Step 0x000f000f#32, [(0, 0), (1, 4), (2, 8), (3, 12)], sqTerm⟩
/-- 727-895. -/
def l2x2v3 : PackedKernel := ⟨2, 16, 8, l2Step 0x00030003#32,
  [(0, 0), (1, 2), (2, 4), (3, 6), (0, 8), (1, 10), (2, 12), (3, 14)], sqTerm⟩
/-- 1150-1270. -/
def ipx4v3 : PackedKernel := ⟨4, 8, 8, ipStep 0x000f000f#32, [(0, 0), (1, 4), (2, 8), (3, 12)], ipTerm⟩
/-- 1288-1402. -/
def ipx4v4 : PackedKernel := ⟨4, 8, 16, vnniStep 0x0f0f0f0f#32, [(0, 0), (1, 4)], ipTerm⟩
/-- 1416-1567. -/
def ipx2v3 : PackedKernel := ⟨2, 16, 8, ipStep 0x00030003#32,
  [(0, 0), (1, 2), (2, 4), (3, 6), (0, 8), (1, 10), (2, 12), (3, 14)], ipTerm⟩
/-- 1015-1137. -/
def ipx2v4 : PackedKernel := ⟨2, 16, 16, vnniStep 0x03030303#32, [(0, 0), (1, 2), (2, 4), (3, 6)], ipTerm⟩

/-! ## Eight bits against four, two and one bit on AVX2, 1657-2101 -/

/-- `unpack_half` 1694-1698 and `unpack_sub` 1842-1846: interleave `input` and `input >> N`, keep `N` bits. -/
def unpackSub (N : Nat) (input : Reg 8) : Reg 8 := fun k =>
  (if k % 2 = 0 then input (k / 2) else input (k / 2) >>> N) &&& ((1#8 <<< N) - 1)

/-- `_mm256_maddubs_epi16`: unsigned times signed bytes, neighbours added with signed saturation. -/
def maddubs (x y : Reg 8) : Reg 16 := fun k =>
  let s := (x (2 * k)).toNat * (y (2 * k)).toInt + (x (2 * k + 1)).toNat * (y (2 * k + 1)).toInt
  BitVec.ofInt 16 (max (-32768) (min 32767 s))

/-- The products of one block of 32 elements, 1722-1728. -/
def het4Block (x y : List Byte) (i : Nat) : Option (Reg 16) := do
  let vx ← loadBytes x (32 * i) 32
  let vy ← loadBytes y (16 * i) 16
  some (maddubs vx (unpackSub 4 vy))

/-- The products of one block of 64 elements (both halves added), 1872-1883 with `unpack_crumbs` 1848-1859. -/
def het2Block (x y : List Byte) (i : Nat) : Option (Reg 16) := do
  let vx0 ← loadBytes x (64 * i) 32
  let vx1 ← loadBytes x (64 * i + 32) 32
  let vy ← loadBytes y (16 * i) 16
  let nibbles := unpackSub 4 vy
  let lower := unpackSub 2 nibbles
  let upper := unpackSub 2 (fun k => nibbles (16 + k))
  some (fun k => maddubs vx0 lower k + maddubs vx1 upper k)

/-- `masked_sad`, 2019-2031: lanes 0, 2, 4, 6 hold the sums of eight masked bytes. -/
def het1Block (x y : List Byte) (i : Nat) : Option (Reg 32) := do
  let vx ← loadBytes x (32 * i) 32
  let vy ← loadBytes y (4 * i) 4
  let bits := asU32 vy 0
  let masked : Reg 8 := fun k => if bits.getLsbD k then vx k else 0
  some (fun l => if l % 2 = 0 then
    BitVec.ofNat 32 (((List.range 8).map (fun (k : Nat) => (masked (8 * (l / 2) + k)).toNat)).sum) else 0)

/-- Constants of a kernel: elements per block, the block products, and how several of them enter the accumulator. -/
structure HetKernel where
  bits : Nat
  per : Nat
  width : Nat
  block : List Byte → List Byte → Nat → Option (Reg width)
  merge : Reg 32 → List (Reg width) → Reg 32

/-- `acc.dot_simd(m0 + m1 + ..., ones)`: the products are added in 16 bits before they are widened. -/
def mergeOnes (acc : Reg 32) (ms : List (Reg 16)) : Reg 32 :=
  madd acc (fun k => (ms.map (fun (m : Reg 16) => m k)).sum) (fun _ => 1)

/-- `acc + s0 + s1 + ...`. -/
def mergeAdd (acc : Reg 32) (ms : List (Reg 32)) : Reg 32 := fun l => acc l + (ms.map (fun (m : Reg 32) => m l)).sum

/-- The loop unrolled four times and the loop draining the remaining blocks, 1719-1765, 1869-1938, 2031-2077. -/
def HetKernel.loop (k : HetKernel) (x y : List Byte) (blocks : Nat) : Nat → Nat → Reg 32 → Option (Nat × Reg 32)
  | 0, _, _ => none
  | fuel + 1, i, acc =>
    if i + 4 ≤ blocks then do
      let m0 ← k.block x y i
      let m1 ← k.block x y (i + 1)
      let m2 ← k.block x y (i + 2)
      let m3 ← k.block x y (i + 3)
      k.loop x y blocks fuel (i + 4) (k.merge acc [m0, m1, m2, m3])
    else if i < blocks then do
      let m ← k.block x y i
      k.loop x y blocks fuel (i + 1) (k.merge acc [m])
    else some (i, acc)

/-- 1673-1788, 1808-1962, 1982-2101. -/
def HetKernel.run (k : HetKernel) (x y : BitSlice) : Option (Except LenError (BitVec 32)) :=
  if x.count ≠ y.count then some (.error .unequal)
  else do
    let len := x.count
    let blocks := len / k.per
    let (i, s) ←
      if 0 < blocks then do
        let (i, acc) ← k.loop x.data y.data blocks (blocks + 1) 0 (fun _ => 0)
        some (i, sumTree 8 acc)
      else some (0, 0)
    let i := i * k.per
    if i ≠ len then do
      let t ← elemSum 8 k.bits ipTerm x.data y.data (List.range' i (len - i))
      some (.ok (s + t))
    else some (.ok s)

/-- 1657-1789. -/
def het4 : HetKernel := ⟨4, 32, 16, het4Block, mergeOnes⟩
/-- 1791-1962. -/
def het2 : HetKernel := ⟨2, 64, 16, het2Block, mergeOnes⟩
/-- 1964-2101. -/
def het1 : HetKernel := ⟨1, 32, 32, het1Block, mergeAdd⟩

/-! ## Four transposed bits against one bit, 2123-2250 -/

/-- One group of 64 elements: four planes weighted 1, 2, 4, 8. -/
def planes (x : List Byte) (i : Nat) (bits : BitVec 64) (s : BitVec 32) : Option (BitVec 32) := do
  let b0 ← loadBytes x (8 * (4 * i)) 8
  let s := s + popcount (bits &&& asU64 b0 0)
  let b1 ← loadBytes x (8 * (4 * i + 1)) 8
  let s := s + popcount (bits &&& asU64 b1 0) <<< 1
  let b2 ← loadBytes x (8 * (4 * i + 2)) 8
  let s := s + popcount (bits &&& asU64 b2 0) <<< 2
  let b3 ← loadBytes x (8 * (4 * i + 3)) 8
  some (s + popcount (bits &&& asU64 b3 0) <<< 3)

/-- The loop over full groups, 2173-2199. -/
def transLoop (x y : List Byte) (blocks : Nat) : Nat → Nat → BitVec 32 → Option (Nat × BitVec 32)
  | 0, _, _ => none
  | fuel + 1, i, s =>
    if i < blocks then do
      let bits ← loadBytes y (8 * i) 8
      let s ← planes x i (asU64 bits 0) s
      transLoop x y blocks fuel (i + 1) s
    else some (i, s)

/-- The loop gathering the last bytes of `y` into a word, 2219-2223. -/
def gatherBits (y : List Byte) (k : Nat) : List Nat → BitVec 64 → Option (BitVec 64)
  | [], bits => some bits
  | j :: js, bits => do
    let b ← y[k + j]?
    gatherBits y k js (bits + (b.setWidth 64 <<< (8 * j)))

/-- 2147-2250. -/
def transKernel (x y : BitSlice) : Option (Except LenError (BitVec 32)) :=
  if x.count ≠ y.count then some (.error .unequal)
  else do
    let len := x.count
    let (i, s) ← transLoop x.data y.data (len / 64) (len / 64 + 1) 0 0
    if 64 * i = len then some (.ok s)
    else do
      let k := i * 8
      if y.data.length < k then none
      else do
        let bits ← gatherBits y.data k (List.range (min (y.data.length - k) 8)) 0
        let bits := bits &&& ((0x01#64 <<< (len - 64 * i)) - 1)
        let s ← planes x.data i bits s
        some (.ok s)

/-! ## Full precision against one, two and four bits on AVX2, 2266-2673

`f32` is exact (`Rat`); rounding is not modelled. -/

/-- Load of `n` floats at offset `off`, further lanes zero. -/
def loadF (x : List Rat) (off n : Nat) : Option (Nat → Rat) :=
  if off + n ≤ x.length then some (fun k => if k < n then x.getD (off + k) 0 else 0) else none

/-- `_mm256_permutevar_ps`: within its half of the register, each lane selects by the low two bits of the index. -/
def permute (values : List Rat) (lane : Nat) (idx : BitVec 32) : Rat := values.getD (4 * (lane / 4) + idx.toNat % 4) 0

/-- Constants: elements per 32-bit word, the value of a lane of the broadcast word, the groups of eight elements of a
word (shift of the word, offset in `x`), and the cases of the epilogue: up to this many elements, how many bytes are
read and how many groups are used. -/
structure FullKernel where
  bits : Nat
  per : Nat
  decode : Nat → BitVec 32 → Nat → Rat
  groups : List (Nat × Nat)
  tails : List (Nat × Nat × Nat)

/-- One word against the floats at offset `off`; the last group loads `last` floats, the others eight.
(`s0` and `s1` are added at the end; exact addition does not depend on the order, so one accumulator is kept.) -/
def FullKernel.word (k : FullKernel) (x : List Rat) (off last : Nat) (w : BitVec 32) :
    List (Nat × Nat) → (Nat → Rat) → Option (Nat → Rat)
  | [], s => some s
  | g :: gs, s => do
    let ix ← loadF x (off + g.2) (if gs.isEmpty then last else 8)
    k.word x off last w gs (fun l => s l + ix l * k.decode l w g.1)

/-- The loop over words, 2340-2363, 2479-2535 (unrolled twice), 2631-2641. -/
def FullKernel.loop (k : FullKernel) (x : List Rat) (y : List Byte) (blocks : Nat) :
    Nat → Nat → (Nat → Rat) → Option (Nat × (Nat → Rat))
  | 0, _, _ => none
  | fuel + 1, i, s =>
    if i < blocks then do
      let w ← loadBytes y (4 * i) 4
      let s ← k.word x (k.per * i) 8 (asU32 w 0) k.groups s
      k.loop x y blocks fuel (i + 1) s
    else some (i, s)

/-- The case of the epilogue for `remainder` elements: bytes and groups. -/
def FullKernel.tailCase (k : FullKernel) (remainder : Nat) : Nat × Nat :=
  match k.tails.find? (fun t => remainder ≤ t.1) with
  | some t => t.2
  | none => (4, k.groups.length)

/-- 2299-2431, 2442-2597, 2607-2673. -/
def FullKernel.run (k : FullKernel) (x : List Rat) (y : BitSlice) : Option (Except LenError Rat) :=
  if x.length ≠ y.count then some (.error .unequal)
  else do
    let len := x.length
    let blocks := len / k.per
    let (_, s) ← k.loop x y.data blocks (blocks + 1) 0 (fun _ => 0)
    let remainder := len % k.per
    let s ←
      if remainder ≠ 0 then do
        let tail := if len % 8 = 0 then 8 else len % 8
        let (bytes, groups) := k.tailCase remainder
        let w ← loadBytes y.data (4 * blocks) bytes
        k.word x (k.per * blocks) tail (asU32 w 0) (k.groups.take groups) s
      else some s
    some (.ok (((List.range 8).map s).sum))

/-- 2295-2431: `variable_shifts` 0 ... 7, values 0 and 1 replicated. -/
def full1 : FullKernel := ⟨1, 32, fun l w sh => permute [0, 1, 0, 1, 0, 1, 0, 1] l ((w >>> l) >>> sh),
  [(0, 0), (8, 8), (16, 16), (24, 24)], [(8, 1, 1), (16, 2, 2), (24, 3, 3)]⟩

/-- 2438-2597: `variable_shifts` 0, 2, ..., 14, values 0 ... 3. -/
def full2 : FullKernel := ⟨2, 16, fun l w sh => permute [0, 1, 2, 3, 0, 1, 2, 3] l ((w >>> (2 * l)) >>> sh),
  [(0, 0), (16, 8)], [(4, 1, 1), (8, 2, 1), (12, 3, 2)]⟩

/-- 2603-2673: arithmetic shift by 0, 4, ..., 28, masked, converted. -/
def full4 : FullKernel := ⟨4, 8, fun l w _ => ((w.sshiftRight (4 * l)) &&& 0x0f#32).toInt,
  [(0, 0)], [(2, 1, 1), (4, 2, 1), (6, 3, 1)]⟩

/-- Scalar fallback for every width, 2675-2702. -/
def fullScalarFrom (N : Nat) (y : List Byte) : Nat → List Rat → Rat → Option Rat
  | _, [], s => some s
  | i, a :: x, s => do
    let b ← denseUnpack N y i
    fullScalarFrom N y (i + 1) x (s + a * (b.toNat : Rat))

def fullScalar (N : Nat) (x : List Rat) (y : BitSlice) : Option (Except LenError Rat) :=
  if x.length ≠ y.count then some (.error .unequal) else (fullScalarFrom N y.data 0 x 0).map .ok

/-! ## Eight-bit slices, 385-416 and 969-998

The kernels of `diskann-vector` are used: the sum is formed in `i32` (wrapping), converted to `f32`, and the result is
cast `as u32`. The loop of that crate is not modelled here, only the sum it forms. -/

/-- Round to nearest, ties to even, at multiples of `q`. -/
def roundEven (n q : Nat) : Nat :=
  let d := n / q
  let r := n % q
  if 2 * r < q then d * q else if q < 2 * r then (d + 1) * q else if d % 2 = 0 then d * q else (d + 1) * q

/-- `n as f32` for a non-negative `n : i32`: 24 significant bits. -/
def toF32 (n : Nat) : Nat := if n < 2 ^ 24 then n else roundEven n (2 ^ (Nat.log2 n - 23))

/-- `(s as f32) as u32`: negative values become 0. -/
def throughF32 (s : BitVec 32) : BitVec 32 := if s.toInt < 0 then 0 else BitVec.ofNat 32 (toF32 s.toInt.toNat)

/-- 397-416, 979-998. -/
def byteKernel (term : Byte → Byte → BitVec 32) (x y : BitSlice) : Option (Except LenError (BitVec 32)) :=
  if x.count ≠ y.count then some (.error .unequal)
  else some (.ok (throughF32 ((x.data.zip y.data).map (fun p => term p.1 p.2)).sum))

/-! ## Which kernel an architecture runs

`diskann_wide::ARCH` or the run-time dispatcher selects the architecture; `retarget` moves an implementation to the
next lower one (V4 to V3, V3 and Neon to the scalar one), 123-153 and 2704-2733. -/

inductive Arch
  | scalar | v3 | v4 | neon
deriving DecidableEq, Repr

abbrev IntKernel := BitSlice → BitSlice → Option (Except LenError (BitVec 32))

/-- `SquaredL2` on two slices of `N` bits: 397-416, 431-903, 946-966. -/
def l2Kernel : Arch → Nat → Option IntKernel
  | _, 1 => some (bitvectorOp xorOp)
  | .v3, 2 => some l2x2v3.runV3
  | .v4, 2 => some l2x2v3.runV3
  | .v3, 4 => some l2x4v3.runV3
  | .v4, 4 => some (l2x4v4.runV4 2 1)
  | _, 8 => some (byteKernel sqTerm)
  | _, N => if 2 ≤ N ∧ N ≤ 7 then some (scalarKernel N N sqTerm) else none

/-- `InnerProduct` on slices of `N` and `M` bits: 979-998, 1015-1621, 1624-2118. -/
def ipKernel : Arch → Nat → Nat → Option IntKernel
  | _, 1, 1 => some (bitvectorOp andOp)
  | .v3, 2, 2 => some ipx2v3.runV3
  | .v4, 2, 2 => some (ipx2v4.runV4 4 3)
  | .v3, 4, 4 => some ipx4v3.runV3
  | .v4, 4, 4 => some (ipx4v4.runV4 2 1)
  | _, 8, 8 => some (byteKernel ipTerm)
  | .v3, 8, 4 => some het4.run
  | .v4, 8, 4 => some het4.run
  | .v3, 8, 2 => some het2.run
  | .v4, 8, 2 => some het2.run
  | .v3, 8, 1 => some het1.run
  | .v4, 8, 1 => some het1.run
  | _, N, M => if N = M ∧ 2 ≤ N ∧ N ≤ 7 ∨ N = 8 ∧ (M = 4 ∨ M = 2 ∨ M = 1) then some (scalarKernel N M ipTerm) else none

/-- `InnerProduct` of a float slice and a slice of `N` bits: 2295-2755. -/
def fullKernel : Arch → Nat → Option (List Rat → BitSlice → Option (Except LenError Rat))
  | .v3, 1 => some full1.run
  | .v4, 1 => some full1.run
  | .v3, 2 => some full2.run
  | .v4, 2 => some full2.run
  | .v3, 4 => some full4.run
  | .v4, 4 => some full4.run
  | _, N => if 1 ≤ N ∧ N ≤ 8 then some (fullScalar N) else none

end Verif.Quant
