import Verif.Quant.BitKernelModel
import Mathlib.Algebra.Field.Defs
import Mathlib.Order.Defs.LinearOrder
import Mathlib.Data.BitVec

/-! # Distances between dense vectors: model of `diskann-vector/src/distance/{simd,implementations,distance_provider}.rs`
and `diskann-vector/src/norm.rs`

A slice is a list; a read past its end is `none`. `f32` and `f16` values are elements of an ordered field `K`: sums,
products and the `f16` to `f32` conversion are exact, rounding, overflow and NaN are not modelled, and the square root is a
parameter. Integers are `BitVec`s: additions and multiplications wrap (the vector instructions do; scalar `+` does in a
release build, a debug build panics instead). A register is a function from lane numbers to values. The vector instructions
and the wrappers of `diskann-wide` around them are modelled by their documented lane-wise meaning; `sum_tree` is the sum of
the lanes. -/

namespace Verif.Vec

open Verif.Quant (Byte Arch madd toF32)

abbrev Lanes (α : Type) := Nat → α

/-- `emit_length_error`, simd.rs 672-679, and `fail_length_check`, implementations.rs 114-128. -/
inductive LenPanic
  | lengths
deriving DecidableEq, Repr

/-- `load_simd`: the `w` elements at `off`. -/
def load {T : Type} [Zero T] (mem : List T) (off w : Nat) : Option (Lanes T) :=
  if off + w ≤ mem.length then some (fun k => mem.getD (off + k) 0) else none

/-- `load_simd_first`: the first `n` lanes of `w` from memory, the others zero. -/
def loadFirst {T : Type} [Zero T] (mem : List T) (off n w : Nat) : Option (Lanes T) :=
  if off + min n w ≤ mem.length then some (fun k => if k < n then mem.getD (off + k) 0 else 0) else none

/-- The five implementations of `MainLoop`, 243-261. -/
inductive Strategy
  | s1x1 | s2x1 | s4x1 | s4x2 | s2x4
deriving DecidableEq, Repr

/-- `MainLoop::BLOCK_SIZE`, 264, 289, 322, 366, 425. -/
def Strategy.blockSize : Strategy → Nat
  | .s1x1 => 1
  | .s2x1 => 2
  | .s4x1 => 4
  | .s4x2 => 4
  | .s2x4 => 4

/-- `SIMDSchema`, 492-608. The epilogue gets the two slices and the offset at which its pointers point. -/
structure Schema (T U A R : Type) where
  width : Nat
  main : Strategy
  init : A
  accumulate : Lanes T → Lanes U → A → A
  combine : A → A → A
  epilogue : List T → List U → Nat → Nat → A → Option A
  reduce : A → R

variable {T U A R : Type} [Zero T] [Zero U]

/-- `schema.accumulate_tuple(s, loader.load(block, offset))`: `Loader::load` 164-183, `accumulate_tuple` 598-607. -/
def Schema.step (S : Schema T U A R) (p : List T × List U) (block offset : Nat) (s : A) : Option A := do
  let stride := S.width
  let blockStride := stride * S.main.blockSize
  let off := blockStride * block + stride * offset
  let a ← load p.1 off stride
  let b ← load p.2 off stride
  some (S.accumulate a b s)

/-- `Strategy1x1::main`, 266-285. -/
def Schema.main1x1 (S : Schema T U A R) (p : List T × List U) (trip : Nat) : Option A :=
  (List.range trip).foldlM (fun s0 i => S.step p i 0 s0) S.init

/-- `Strategy2x1::main`, 291-318. -/
def Schema.main2x1 (S : Schema T U A R) (p : List T × List U) (trip epilogues : Nat) : Option A := do
  let (s0, s1) ← (List.range trip).foldlM (fun (s : A × A) i => do
    let s0 ← S.step p i 0 s.1
    let s1 ← S.step p i 1 s.2
    some (s0, s1)) (S.init, S.init)
  let s := S.combine s0 s1
  if epilogues ≠ 0 then S.step p trip 0 s else some s

/-- The partial block after the loop of `Strategy4x1` and `Strategy4x2`, 350-362 and 407-421. -/
def Schema.tail4 (S : Schema T U A R) (p : List T × List U) (trip epilogues : Nat) (s : A × A × A × A) : Option A := do
  let (s0, s1, s2, s3) := s
  let s0 ← if 1 ≤ epilogues then S.step p trip 0 s0 else some s0
  let s1 ← if 2 ≤ epilogues then S.step p trip 1 s1 else some s1
  let s2 ← if 3 ≤ epilogues then S.step p trip 2 s2 else some s2
  some (S.combine (S.combine s0 s1) (S.combine s2 s3))

/-- Four loads of one block into four accumulators (offsets from `o`), 344-347, 389-392, 394-397, 402-405. -/
def Schema.four (S : Schema T U A R) (p : List T × List U) (block o : Nat) (s : A × A × A × A) :
    Option (A × A × A × A) := do
  let s0 ← S.step p block o s.1
  let s1 ← S.step p block (o + 1) s.2.1
  let s2 ← S.step p block (o + 2) s.2.2.1
  let s3 ← S.step p block (o + 3) s.2.2.2
  some (s0, s1, s2, s3)

/-- `Strategy4x1::main`, 324-363. -/
def Schema.main4x1 (S : Schema T U A R) (p : List T × List U) (trip epilogues : Nat) : Option A := do
  let s ← (List.range trip).foldlM (fun s i => S.four p i 0 s) (S.init, S.init, S.init, S.init)
  S.tail4 p trip epilogues s

/-- `Strategy4x2::main`, 368-421. -/
def Schema.main4x2 (S : Schema T U A R) (p : List T × List U) (trip epilogues : Nat) : Option A := do
  let s ← (List.range (trip / 2)).foldlM (fun s i => do
    let s ← S.four p (2 * i) 0 s
    S.four p (2 * i) 4 s) (S.init, S.init, S.init, S.init)
  let s ← if trip % 2 ≠ 0 then S.four p (trip - 1) 0 s else some s
  S.tail4 p trip epilogues s

/-- Four loads of one block into two accumulators, 451-454, 456-459, 464-467. -/
def Schema.fourInTwo (S : Schema T U A R) (p : List T × List U) (block o : Nat) (s : A × A) : Option (A × A) := do
  let s0 ← S.step p block o s.1
  let s1 ← S.step p block (o + 1) s.2
  let s0 ← S.step p block (o + 2) s0
  let s1 ← S.step p block (o + 3) s1
  some (s0, s1)

/-- The remaining whole vectors of `Strategy2x4::main`, and the combination of its accumulators, 466-484. -/
def Schema.tail2 (S : Schema T U A R) (p : List T × List U) (trip epilogues : Nat) (s : A × A) : Option A := do
  let s0 ← if 1 ≤ epilogues then S.step p trip 0 s.1 else some s.1
  let s1 ← if 2 ≤ epilogues then S.step p trip 1 s.2 else some s.2
  let s0 ← if 3 ≤ epilogues then S.step p trip 2 s0 else some s0
  some (S.combine s0 s1)

/-- `Strategy2x4::main`, 427-485. -/
def Schema.main2x4 (S : Schema T U A R) (p : List T × List U) (trip epilogues : Nat) : Option A := do
  let s ← (List.range (trip / 2)).foldlM (fun s i => do
    let s ← S.fourInTwo p (2 * i) 0 s
    S.fourInTwo p (2 * i) 4 s) (S.init, S.init)
  let s ← if trip % 2 ≠ 0 then S.fourInTwo p (trip - 1) 0 s else some s
  S.tail2 p trip epilogues s

/-- `S::Main::main`. -/
def Schema.runMain (S : Schema T U A R) (p : List T × List U) (trip epilogues : Nat) : Option A :=
  match S.main with
  | .s1x1 => S.main1x1 p trip
  | .s2x1 => S.main2x1 p trip epilogues
  | .s4x1 => S.main4x1 p trip epilogues
  | .s4x2 => S.main4x2 p trip epilogues
  | .s2x4 => S.main2x4 p trip epilogues

/-- `simd_op`, 686-750. -/
def simdOp (S : Schema T U A R) (x : List T) (y : List U) : Option (Except LenPanic R) :=
  let len := x.length
  if len ≠ y.length then some (.error .lengths)
  else do
    let simdWidth := S.width
    let unroll := S.main.blockSize
    let trip := len / (simdWidth * unroll)
    let epilogues := (len - simdWidth * unroll * trip) / simdWidth
    let s0 ← S.runMain (x, y) trip epilogues
    let remainder := len % simdWidth
    let s0 ← if remainder ≠ 0 then S.epilogue x y (len - remainder) remainder s0 else some s0
    some (.ok (S.reduce s0))

/-! ## Epilogues -/

/-- The default `epilogue`, 555-571. -/
def defaultEpilogue (w : Nat) (acc : Lanes T → Lanes U → A → A) (x : List T) (y : List U) (off len : Nat) (a : A) :
    Option A := do
  let vx ← loadFirst x off len w
  let vy ← loadFirst y off len w
  some (acc vx vy a)

/-- `scalar_epilogue` 755-776 and the loops over single elements (935-943, 1321-1329, 1701-1709, 2495-2505, 2934-2945,
3306-3310, 3355-3359). -/
def scalarLoop {B : Type} (f : B → T → U → B) (x : List T) (y : List U) (off len : Nat) (b : B) : Option B :=
  (List.range len).foldlM (fun b i => do
    let vx ← x[off + i]?
    let vy ← y[off + i]?
    some (f b vx vy)) b

/-- `from_array(arch, [v, 0, ..., 0])`. -/
def lane0 {α : Type} [Zero α] (v : α) : Lanes α := fun k => if k = 0 then v else 0

/-- `sum_tree`, or the sum of the array. -/
def sumLanes {α : Type} [Add α] [Zero α] (lanes : Nat) (r : Lanes α) : α := ((List.range lanes).map r).sum

/-- `Resumable<R>` around a schema, 622-670: the default epilogue, and `reduce` adds to the stored state
(`combine_with` 1538-1542, 2263-2267, 3209-3214). -/
def Schema.resumable (S : Schema T U A R) (state : A) : Schema T U A A :=
  { width := S.width, main := S.main, init := S.init, accumulate := S.accumulate, combine := S.combine
    epilogue := defaultEpilogue S.width S.accumulate
    reduce := fun a => S.combine state a }

/-- Feeding pairs of slices to a resumable computation, one after the other (as `test_resumable` 3744-3756 and the PQ
distance functions do). -/
def Schema.feed (S : Schema T U A R) : List (List T × List U) → A → Option (Except LenPanic A)
  | [], s => some (.ok s)
  | p :: ps, s => do
    match ← simdOp (S.resumable s) p.1 p.2 with
    | .error e => some (.error e)
    | .ok s => S.feed ps s

/-- `ResumableSIMDSchema::{init, sum}`, 1533-1535, 1545-1547. -/
def Schema.runResumable (S : Schema T U A R) (ps : List (List T × List U)) : Option (Except LenPanic R) := do
  match ← S.feed ps S.init with
  | .error e => some (.error e)
  | .ok s => some (.ok (S.reduce s))

/-! ## Floating point schemas -/

section Float

variable {K : Type} [Field K] [LinearOrder K]

/-- How a float schema treats the last elements. -/
inductive Epi
  /-- the default epilogue -/
  | masked
  /-- a scalar loop over all of them, added to lane 0 (portable architecture) -/
  | lane0
  /-- a scalar loop over at most `width - 1`, added to lane 0 (Neon, `f32`) -/
  | lane0Capped
  /-- at most `width - 1` one-lane vectors (Neon, `f16`) -/
  | vectors
  /-- `unreachable!` -/
  | unreachable
deriving DecidableEq, Repr

/-- The epilogue of an accumulator made of one register, given the per-lane step. -/
def floatEpilogue (e : Epi) (w : Nat) (f : K → K → K → K) (x y : List K) (off len : Nat) (a : Lanes K) :
    Option (Lanes K) :=
  match e with
  | .masked => defaultEpilogue w (fun vx vy a => fun k => f (vx k) (vy k) (a k)) x y off len a
  | .lane0 => do
    let s ← scalarLoop (fun s vx vy => f vx vy s) x y off len (0 : K)
    some (fun k => a k + lane0 s k)
  | .lane0Capped => do
    let s ← scalarLoop (fun s vx vy => f vx vy s) x y off (min len (w - 1)) (0 : K)
    some (fun k => a k + lane0 s k)
  | .vectors => do
    let r ← scalarLoop (fun (r : Lanes K) vx vy => fun k => f (lane0 vx k) (lane0 vy k) (r k)) x y off
      (min len (w - 1)) (fun _ => 0)
    some (fun k => a k + r k)
  | .unreachable => none

/-- A schema whose accumulator is one register of `w` lanes. -/
def floatSchema (f : K → K → K → K) (w : Nat) (main : Strategy) (e : Epi) : Schema K K (Lanes K) K :=
  { width := w, main := main, init := fun _ => 0
    accumulate := fun x y a => fun k => f (x k) (y k) (a k)
    combine := fun a b => fun k => a k + b k
    epilogue := floatEpilogue e w f
    reduce := sumLanes w }

/-- `c = x - y; c.mul_add_simd(c, acc)`, 802-805. -/
def l2Term (x y acc : K) : K := (x - y) * (x - y) + acc

/-- `x.mul_add_simd(y, acc)`, 1578. -/
def ipTerm (x y acc : K) : K := x * y + acc

/-- `x.abs_simd() + acc`, 3237. -/
def l1Term (x _y acc : K) : K := |x| + acc

/-- Pairs of floating point element types. -/
inductive FloatTy
  | f32 | f16 | f32f16
deriving DecidableEq, Repr

/-- `L2` on floats, 785-1154. -/
def l2Float : Arch → FloatTy → Schema K K (Lanes K) K
  | .v4, .f32 => floatSchema l2Term 8 .s4x1 .masked
  | .v3, .f32 => floatSchema l2Term 8 .s4x1 .masked
  | .neon, .f32 => floatSchema l2Term 4 .s4x1 .lane0Capped
  | .scalar, .f32 => floatSchema l2Term 4 .s2x1 .lane0
  | .v4, .f16 => floatSchema l2Term 8 .s2x4 .masked
  | .v3, .f16 => floatSchema l2Term 8 .s2x4 .masked
  | .neon, .f16 => floatSchema l2Term 4 .s4x1 .vectors
  | .scalar, .f16 => floatSchema l2Term 1 .s1x1 .masked
  | _, .f32f16 => floatSchema l2Term 8 .s4x2 .masked

/-- `IP` on floats, 1557-1910. -/
def ipFloat : Arch → FloatTy → Schema K K (Lanes K) K
  | .v4, .f32 => floatSchema ipTerm 8 .s4x1 .masked
  | .v3, .f32 => floatSchema ipTerm 8 .s4x1 .masked
  | .neon, .f32 => floatSchema ipTerm 4 .s4x1 .lane0Capped
  | .scalar, .f32 => floatSchema ipTerm 4 .s2x1 .lane0
  | .v4, .f16 => floatSchema ipTerm 8 .s4x1 .masked
  | .v3, .f16 => floatSchema ipTerm 8 .s2x4 .masked
  | .neon, .f16 => floatSchema ipTerm 4 .s4x1 .vectors
  | .scalar, .f16 => floatSchema ipTerm 1 .s1x1 .masked
  | _, .f32f16 => floatSchema ipTerm 8 .s4x2 .masked

/-- `L1Norm`, 3217-3531 (no mixed implementation). -/
def l1Float : Arch → FloatTy → Option (Schema K K (Lanes K) K)
  | .v4, .f32 => some (floatSchema l1Term 16 .s4x1 .masked)
  | .v3, .f32 => some (floatSchema l1Term 8 .s4x1 .masked)
  | .neon, .f32 => some (floatSchema l1Term 4 .s4x1 .lane0Capped)
  | .scalar, .f32 => some (floatSchema l1Term 4 .s2x1 .lane0)
  | .v4, .f16 => some (floatSchema l1Term 8 .s2x4 .masked)
  | .v3, .f16 => some (floatSchema l1Term 8 .s2x4 .masked)
  | .neon, .f16 => some (floatSchema l1Term 4 .s2x4 .vectors)
  | .scalar, .f16 => some (floatSchema l1Term 1 .s1x1 .unreachable)
  | _, .f32f16 => none

/-- `FullCosineAccumulator`, 2279-2285. -/
structure CosAcc (α : Type) where
  normx : α
  normy : α
  xy : α

/-- `impl Add for FullCosineAccumulator`, 2376-2389. -/
def CosAcc.add {α : Type} [Add α] (a b : CosAcc (Lanes α)) : CosAcc (Lanes α) :=
  ⟨fun k => a.normx k + b.normx k, fun k => a.normy k + b.normy k, fun k => a.xy k + b.xy k⟩

/-- `FullCosineAccumulator::new`, 2297-2305. -/
def CosAcc.zero {α : Type} [Zero α] : CosAcc (Lanes α) := ⟨fun _ => 0, fun _ => 0, fun _ => 0⟩

/-- `add_with` 2307-2315 and `add_with_unfused` 2317-2325. -/
def CosAcc.addWith (x y : Lanes K) (a : CosAcc (Lanes K)) : CosAcc (Lanes K) :=
  ⟨fun k => x k * x k + a.normx k, fun k => y k * y k + a.normy k, fun k => x k * y k + a.xy k⟩

/-- `f32::MIN_POSITIVE`. -/
def minPositive : K := 1 / 2 ^ 126

/-- `FullCosineAccumulator::sum`, 2327-2364, on the three sums. -/
def cosineSum (sqrt : K → K) (normx normy prod : K) : K :=
  let denominator := sqrt normx * sqrt normy
  if normx < minPositive ∨ normy < minPositive then 0
  else max (-1) (min 1 (prod / denominator))

/-- Epilogues of `CosineStateless` on floats: 2485-2512, 2655-2675 and the default. -/
def cosEpilogue (e : Epi) (w : Nat) (x y : List K) (off len : Nat) (a : CosAcc (Lanes K)) :
    Option (CosAcc (Lanes K)) :=
  match e with
  | .masked => defaultEpilogue w CosAcc.addWith x y off len a
  | .lane0 | .unreachable => none
  | .lane0Capped => do
    let s ← scalarLoop (fun (s : CosAcc K) vx vy => ⟨vx * vx + s.normx, vy * vy + s.normy, vx * vy + s.xy⟩) x y off
      (min len (w - 1)) ⟨0, 0, 0⟩
    some (a.add ⟨lane0 s.normx, lane0 s.normy, lane0 s.xy⟩)
  | .vectors => do
    let r ← scalarLoop (fun (r : CosAcc (Lanes K)) vx vy => CosAcc.addWith (lane0 vx) (lane0 vy) r) x y off
      (min len (w - 1)) CosAcc.zero
    some (a.add r)

/-- A `CosineStateless` schema on floats. -/
def cosSchema (sqrt : K → K) (w : Nat) (main : Strategy) (e : Epi) : Schema K K (CosAcc (Lanes K)) K :=
  { width := w, main := main, init := CosAcc.zero, accumulate := CosAcc.addWith, combine := CosAcc.add
    epilogue := cosEpilogue e w
    reduce := fun a => cosineSum sqrt (sumLanes w a.normx) (sumLanes w a.normy) (sumLanes w a.xy) }

/-- `CosineStateless` on floats, 2395-2747. -/
def cosFloat (sqrt : K → K) : Arch → FloatTy → Schema K K (CosAcc (Lanes K)) K
  | .v4, .f32 => cosSchema sqrt 16 .s2x4 .masked
  | .v3, .f32 => cosSchema sqrt 8 .s2x4 .masked
  | .neon, .f32 => cosSchema sqrt 4 .s2x4 .lane0Capped
  | .scalar, .f32 => cosSchema sqrt 4 .s2x1 .masked
  | .v4, .f16 => cosSchema sqrt 16 .s2x4 .masked
  | .v3, .f16 => cosSchema sqrt 8 .s2x4 .masked
  | .neon, .f16 => cosSchema sqrt 4 .s2x4 .vectors
  | .scalar, .f16 => cosSchema sqrt 1 .s1x1 .masked
  | _, .f32f16 => cosSchema sqrt 8 .s2x4 .masked

end Float

/-! ## Integer schemas -/

section Int

/-- Element types `i8` and `u8`. -/
inductive IntTy
  | i8 | u8
deriving DecidableEq, Repr

/-- Conversion of an element to a wider integer. -/
def IntTy.widen (t : IntTy) (w : Nat) (b : Byte) : BitVec w :=
  match t with
  | .i8 => b.signExtend w
  | .u8 => b.setWidth w

/-- Signedness of the 32-bit accumulator. -/
inductive AccTy
  | i32 | u32
deriving DecidableEq, Repr

/-- `as_f32_lossy`, 30-40. -/
def AccTy.asF32 (t : AccTy) (w : BitVec 32) : Int :=
  match t with
  | .i32 => w.toInt.sign * toF32 w.toInt.natAbs
  | .u32 => toF32 w.toNat

abbrev Acc32 := Lanes (BitVec 32)

/-- `x - y` on 16-bit lanes, then `acc.dot_simd(c, c)`, 1182-1185. -/
def l2Madd (t : IntTy) (x y : Lanes Byte) (a : Acc32) : Acc32 :=
  let c : Lanes (BitVec 16) := fun k => t.widen 16 (x k) - t.widen 16 (y k)
  madd a c c

/-- `acc.dot_simd(x, y)` on 16-bit lanes, 1937-1939. -/
def ipMadd (t : IntTy) (x y : Lanes Byte) (a : Acc32) : Acc32 :=
  madd a (fun k => t.widen 16 (x k)) (fun k => t.widen 16 (y k))

/-- `squared_euclidean_accum_{i8x16,u8x16}`, `diskann-wide/src/arch/aarch64/algorithms.rs` 20-86, 97-149: `vsubl` gives
16-bit differences; lane `i` of the accumulator gets the squares (`vmlal`, sign extended) of elements `8 * (i / 4) + i % 4`
and four further. -/
def l2Neon (t : IntTy) (x y : Lanes Byte) (a : Acc32) : Acc32 := fun i =>
  let d : Nat → BitVec 32 := fun k => (t.widen 16 (x k) - t.widen 16 (y k)).signExtend 32
  let base := 8 * (i / 4) + i % 4
  a i + d base * d base + d (base + 4) * d (base + 4)

/-- `sdot`, `udot` (`diskann-wide/src/arch/aarch64/{i32x4_,u32x4_}.rs`). -/
def ipNeon (t : IntTy) (x y : Lanes Byte) (a : Acc32) : Acc32 := fun i =>
  let p : Nat → BitVec 32 := fun k => t.widen 32 (x k) * t.widen 32 (y k)
  a i + (p (4 * i) + p (4 * i + 1) + p (4 * i + 2) + p (4 * i + 3))

/-- One squared difference in 32 bits, 1264-1267, 1327-1328, 1441-1443. -/
def l2Scalar (t : IntTy) (x y : Byte) : BitVec 32 :=
  (t.widen 32 x - t.widen 32 y) * (t.widen 32 x - t.widen 32 y)

/-- One product in 32 bits, 2017, 2056-2058, 2181. -/
def ipScalar (t : IntTy) (x y : Byte) : BitVec 32 := t.widen 32 x * t.widen 32 y

/-- Scalar epilogue of the integer schemas. -/
def intEpilogue (term : Byte → Byte → BitVec 32) (x y : List Byte) (off len : Nat) (a : Acc32) : Option Acc32 := do
  let s ← scalarLoop (fun s vx vy => s + term vx vy) x y off len (0 : BitVec 32)
  some (fun k => a k + lane0 s k)

/-- An integer schema with a one-register accumulator of `lanes` lanes. -/
def intSchema (w lanes : Nat) (main : Strategy) (step : Lanes Byte → Lanes Byte → Acc32 → Acc32)
    (epi : List Byte → List Byte → Nat → Nat → Acc32 → Option Acc32) (at' : AccTy) : Schema Byte Byte Acc32 Int :=
  { width := w, main := main, init := fun _ => 0, accumulate := step, combine := fun a b => fun k => a k + b k
    epilogue := epi
    reduce := fun a => at'.asF32 (sumLanes lanes a) }

/-- `L2` on integers, 1156-1510. -/
def l2Int : Arch → IntTy → Schema Byte Byte Acc32 Int
  | .v4, t => intSchema 32 16 .s4x1 (l2Madd t) (defaultEpilogue 32 (l2Madd t)) .i32
  | .v3, t => intSchema 16 8 .s4x1 (l2Madd t) (defaultEpilogue 16 (l2Madd t)) .i32
  | .neon, .i8 => intSchema 16 8 .s2x1 (l2Neon .i8) (fun x y off len => intEpilogue (l2Scalar .i8) x y off (min len 15)) .i32
  | .neon, .u8 => intSchema 16 8 .s2x1 (l2Neon .u8) (fun x y off len => intEpilogue (l2Scalar .u8) x y off (min len 15)) .u32
  | .scalar, t =>
    intSchema 4 4 .s1x1 (fun x y a => fun k => a k + l2Scalar t (x k) (y k)) (intEpilogue (l2Scalar t)) .i32

/-- `IP` on integers, 1912-2237. -/
def ipInt : Arch → IntTy → Schema Byte Byte Acc32 Int
  | .v4, t => intSchema 32 16 .s4x1 (ipMadd t) (defaultEpilogue 32 (ipMadd t)) .i32
  | .v3, t => intSchema 16 8 .s4x1 (ipMadd t) (defaultEpilogue 16 (ipMadd t)) .i32
  | .neon, .i8 => intSchema 16 4 .s2x1 (ipNeon .i8) (fun x y off len => intEpilogue (ipScalar .i8) x y off (min len 15)) .i32
  | .neon, .u8 => intSchema 16 4 .s2x1 (ipNeon .u8) (fun x y off len => intEpilogue (ipScalar .u8) x y off (min len 15)) .u32
  | .scalar, t =>
    intSchema 1 1 .s1x1 (fun x y a => fun k => ipScalar t (x k) (y k) + a k) (fun _ _ _ _ _ => none) .i32

/-- Three accumulators with a common step, 2766-2786, 2844-2855, 2906-2916. -/
def cosStep (step : Lanes Byte → Lanes Byte → Acc32 → Acc32) (x y : Lanes Byte) (a : CosAcc Acc32) : CosAcc Acc32 :=
  ⟨step x x a.normx, step y y a.normy, step x y a.xy⟩

/-- Scalar epilogue of the integer cosine, 2857-2884, 2924-2952, 3063-3090, 3130-3158. -/
def cosIntEpilogue (t : IntTy) (x y : List Byte) (off len : Nat) (a : CosAcc Acc32) : Option (CosAcc Acc32) := do
  let s ← scalarLoop (fun (s : CosAcc (BitVec 32)) vx vy =>
    ⟨s.normx + ipScalar t vx vx, s.normy + ipScalar t vy vy, s.xy + ipScalar t vx vy⟩) x y off len ⟨0, 0, 0⟩
  some (a.add ⟨lane0 s.normx, lane0 s.normy, lane0 s.xy⟩)

variable {K : Type} [Field K] [LinearOrder K]

/-- A `CosineStateless` schema on integers. -/
def cosIntSchema (sqrt : K → K) (w lanes : Nat) (main : Strategy) (step : Lanes Byte → Lanes Byte → Acc32 → Acc32)
    (epi : List Byte → List Byte → Nat → Nat → CosAcc Acc32 → Option (CosAcc Acc32)) (at' : AccTy) :
    Schema Byte Byte (CosAcc Acc32) K :=
  { width := w, main := main, init := CosAcc.zero, accumulate := cosStep step, combine := CosAcc.add, epilogue := epi
    reduce := fun a => cosineSum sqrt (at'.asF32 (sumLanes lanes a.normx)) (at'.asF32 (sumLanes lanes a.normy))
      (at'.asF32 (sumLanes lanes a.xy)) }

/-- `CosineStateless` on integers, 2749-3159. -/
def cosInt (sqrt : K → K) : Arch → IntTy → Schema Byte Byte (CosAcc Acc32) K
  | .v4, t => cosIntSchema sqrt 32 16 .s4x1 (ipMadd t) (defaultEpilogue 32 (cosStep (ipMadd t))) .i32
  | .v3, t => cosIntSchema sqrt 16 8 .s4x1 (ipMadd t) (defaultEpilogue 16 (cosStep (ipMadd t))) .i32
  | .neon, .i8 => cosIntSchema sqrt 16 4 .s2x1 (ipNeon .i8) (fun x y off len => cosIntEpilogue .i8 x y off (min len 15)) .i32
  | .neon, .u8 => cosIntSchema sqrt 16 4 .s2x1 (ipNeon .u8) (fun x y off len => cosIntEpilogue .u8 x y off (min len 15)) .u32
  | .scalar, t =>
    cosIntSchema sqrt 4 4 .s1x1 (fun x y a => fun k => ipScalar t (x k) (y k) + a k) (cosIntEpilogue t) .i32

end Int

/-! ## Distance functors, metrics, norms -/

section Api

variable {K : Type} [Field K] [LinearOrder K]

/-- Functors of implementations.rs. -/
inductive Functor'
  | squaredL2 | fullL2 | innerProduct | cosine | cosineNormalized
deriving DecidableEq, Repr

/-- Result types: `SimilarityScore<f32>`, `MathematicalValue<f32>`, `f32`. -/
inductive Out
  | similarity | mathematical | f32
deriving DecidableEq, Repr

/-- `PostOp::post_op`, implementations.rs 210-227, 247-266, 282-308, 330-358, 372-400. -/
def postOp (sqrt : K → K) : Functor' → Out → K → K
  | .squaredL2, _, v => v
  | .fullL2, _, v => sqrt v
  | .innerProduct, .mathematical, v => v
  | .innerProduct, _, v => -v
  | .cosine, .mathematical, v => v
  | .cosine, _, v => 1 - v
  | .cosineNormalized, .mathematical, v => v
  | .cosineNormalized, _, v => 1 - v

/-- `architecture_hook!` on float types, implementations.rs 14-46 with 229, 268, 310, 360, 402. -/
def evalFloat (sqrt : K → K) (arch : Arch) (ty : FloatTy) (f : Functor') (out : Out) (x y : List K) :
    Option (Except LenPanic K) :=
  let raw : Option (Except LenPanic K) :=
    match f with
    | .squaredL2 => simdOp (l2Float arch ty) x y
    | .fullL2 => simdOp (l2Float arch ty) x y
    | .innerProduct => simdOp (ipFloat arch ty) x y
    | .cosine => simdOp (cosFloat sqrt arch ty) x y
    | .cosineNormalized => simdOp (ipFloat arch ty) x y
  raw.map (Except.map (postOp sqrt f out))

/-- `architecture_hook!` on integer types (there is no `CosineNormalized` there). -/
def evalInt (sqrt : K → K) (arch : Arch) (ty : IntTy) (f : Functor') (out : Out) (x y : List Byte) :
    Option (Except LenPanic K) :=
  let raw : Option (Except LenPanic K) :=
    match f with
    | .squaredL2 => (simdOp (l2Int arch ty) x y).map (Except.map (fun (v : Int) => (v : K)))
    | .fullL2 => (simdOp (l2Int arch ty) x y).map (Except.map (fun (v : Int) => (v : K)))
    | .innerProduct => (simdOp (ipInt arch ty) x y).map (Except.map (fun (v : Int) => (v : K)))
    | .cosine => simdOp (cosInt sqrt arch ty) x y
    | .cosineNormalized => none
  raw.map (Except.map (postOp sqrt f out))

/-- `Metric`, metric.rs 11-20. -/
inductive Metric
  | cosine | innerProduct | l2 | cosineNormalized
deriving DecidableEq, Repr

/-- The dimensions with a specialised kernel, distance_provider.rs 289-325, for floats. -/
def specFloat : Arch → FloatTy → List Nat
  | .scalar, _ => []
  | _, _ => [768, 384, 128, 100]

/-- The same for integers. -/
def specInt : Arch → IntTy → List Nat
  | .scalar, _ => []
  | _, .u8 => [128]
  | _, .i8 => [128, 100]

/-- `Specialize<N, F>::run`, implementations.rs 101-111. -/
def specialized {T U R : Type} (N : Nat) (f : List T → List U → Option (Except LenPanic R)) (x : List T) (y : List U) :
    Option (Except LenPanic R) :=
  if x.length ≠ N ∨ y.length ≠ N then some (.error .lengths) else f x y

/-- `Cons::specialize` and `try_specialize`, distance_provider.rs 337-435. -/
def specialize {T U R : Type} (dims : List Nat) (f : List T → List U → Option (Except LenPanic R))
    (dim : Option Nat) : List T → List U → Option (Except LenPanic R) :=
  match dim with
  | none => f
  | some d =>
    match dims.find? (fun N => d == N) with
    | some N => specialized N f
    | none => f

/-- `specialize!` on floats, distance_provider.rs 237-262. -/
def Metric.functorFloat : Metric → Functor'
  | .l2 => .squaredL2
  | .cosine => .cosine
  | .cosineNormalized => .cosineNormalized
  | .innerProduct => .innerProduct

/-- `specialize!(@integer, ...)`, 263-286. -/
def Metric.functorInt : Metric → Functor'
  | .l2 => .squaredL2
  | .cosine => .cosine
  | .cosineNormalized => .cosine
  | .innerProduct => .innerProduct

/-- `DistanceProvider::distance_comparer(metric, dim)` followed by `Distance::call`, on floats. -/
def comparerFloat (sqrt : K → K) (arch : Arch) (ty : FloatTy) (m : Metric) (dim : Option Nat) :
    List K → List K → Option (Except LenPanic K) :=
  specialize (specFloat arch ty) (evalFloat sqrt arch ty m.functorFloat .f32) dim

/-- The same on integers. -/
def comparerInt (sqrt : K → K) (arch : Arch) (ty : IntTy) (m : Metric) (dim : Option Nat) :
    List Byte → List Byte → Option (Except LenPanic K) :=
  specialize (specInt arch ty) (evalInt sqrt arch ty m.functorInt .f32) dim

/-- `FastL2NormSquared`, norm.rs 44-56. -/
def normSquaredFloat (sqrt : K → K) (arch : Arch) (ty : FloatTy) (x : List K) : Option (Except LenPanic K) :=
  evalFloat sqrt arch ty .innerProduct .mathematical x x

/-- `FastL2NormSquared` on integers. -/
def normSquaredInt (sqrt : K → K) (arch : Arch) (ty : IntTy) (x : List Byte) : Option (Except LenPanic K) :=
  evalInt sqrt arch ty .innerProduct .mathematical x x

/-- `FastL2Norm`, norm.rs 74-84. -/
def normFloat (sqrt : K → K) (arch : Arch) (ty : FloatTy) (x : List K) : Option (Except LenPanic K) :=
  (normSquaredFloat sqrt arch ty x).map (Except.map sqrt)

/-- `L1Norm`, norm.rs 113-124, 404-418 of implementations.rs. -/
def l1Norm (arch : Arch) (ty : FloatTy) (x : List K) : Option (Except LenPanic K) := do
  let S ← l1Float arch ty
  simdOp S x x

/-- `LInfNorm`, norm.rs 160-187. -/
def lInfNorm (x : List K) : K := x.foldl (fun m v => max m |v|) 0

end Api

end Verif.Vec
