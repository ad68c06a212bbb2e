import Mathlib.Algebra.Order.Floor.Ring
import Mathlib.Algebra.Order.Field.Basic

/-!
# The generator of random data files

Sources: /repo/diskann-tools/src/utils/random_data_generator.rs 23-195; diskann-tools/src/bin/random_data_generator.rs
36-57; diskann-utils/src/sampling/random.rs 34-88; diskann-providers/src/utils/random.rs 16-20.

The random number generator is a state machine `next` with a state for every seed (`seed`).  Arithmetic of floats is
exact; `none` is a value that is not finite.  The square root of the sum of squares and the conversion to half precision
are parameters.  Writes do not fail.  A file is its header and the rows after it.
-/

namespace Verif.Tools.RandomData

/-- `DataType`. -/
inductive DType
  | float
  | uint8
  | int8
  | fp16
deriving DecidableEq, Repr

/-- A written value. -/
inductive Val (K : Type)
  | f32 (x : Option K)
  | u8 (n : Nat)
  | i8 (z : Int)
  | f16 (x : Option K)
deriving DecidableEq, Repr

/-- What the tool depends on. -/
structure Env (σ K : Type) where
  seed : Nat → σ
  next : σ → K × σ
  norm : List K → K
  half : K → Option K

/-- The file: absent, or its bytes so far: empty, or the header and the rows. -/
inductive File (K : Type)
  | absent
  | empty
  | data (npoints ndims : Nat) (rows : List (List (Val K)))
deriving DecidableEq, Repr

/-- `CMDToolError`. -/
inductive Err
  | radius
  | metadata
  | allZero
  | notPositive
deriving DecidableEq, Repr

section

variable {σ K : Type} [Field K] [LinearOrder K] [FloorRing K]

/-- `(0..dim).map(|_| rng.sample(StandardNormal))`, sampling/random.rs 78. -/
def draw (env : Env σ K) : Nat → σ → List K × σ
  | 0, s => ([], s)
  | n + 1, s =>
    let (x, s1) := env.next s
    let (xs, s2) := draw env n s1
    (x :: xs, s2)

/-- The rest of `generate_random_vector_with_norm_signed` for `f32`, sampling/random.rs 79-87: `none` as radius is a NaN; a
zero vector is multiplied by an infinite factor. -/
def scaled (env : Env σ K) (radius : Option K) (v : List K) : List (Option K) :=
  match radius with
  | none => v.map (fun _ => none)
  | some r => if env.norm v = 0 then v.map (fun _ => none) else v.map (fun x => some (x * (r / env.norm v)))

/-- `f32::round`: halves away from zero. -/
def roundAway (x : K) : Int := if 0 ≤ x then ⌊x + 1 / 2⌋ else -⌊-x + 1 / 2⌋

/-- `as u8`: saturating, zero for a NaN. -/
def asU8 : Option Int → Nat
  | none => 0
  | some z => if z < 0 then 0 else if 255 < z then 255 else z.toNat

/-- `as i8`. -/
def asI8 : Option Int → Int
  | none => 0
  | some z => if z < -128 then -128 else if 127 < z then 127 else z

/-- The write methods, random_data_generator.rs 85-133: the value written. -/
def convert (env : Env σ K) (t : DType) (x : Option K) : Val K :=
  match t with
  | .float => .f32 x
  | .uint8 => .u8 (asU8 (x.map (fun x => roundAway (x + 128))))
  | .int8 => .i8 (asI8 (x.map roundAway))
  | .fp16 => .f16 (x.bind env.half)

/-- The write methods: whether the value counts as nonzero. -/
def Val.found : Val K → Bool
  | .f32 (some x) => decide (x ≠ 0)
  | .f32 none => false
  | .u8 n => n != 128
  | .i8 z => z != 0
  | .f16 (some x) => decide (x ≠ 0)
  | .f16 none => false

/-- The loop of `write_random_vector_block`, 174-179. -/
def blockLoop (env : Env σ K) (t : DType) (dim : Nat) (radius : Option K) : Nat → σ → List (List (Val K)) × Bool
  | 0, _ => ([], false)
  | n + 1, s =>
    let (v, s') := draw env dim s
    let row := (scaled env radius v).map (convert env t)
    let (rows, found) := blockLoop env t dim radius n s'
    (row :: rows, row.any Val.found || found)

/-- `write_random_vector_block`, 161-192: the generator is created for the block. -/
def writeBlock (env : Env σ K) (t : DType) (dim count : Nat) (radius : Option K) : List (List (Val K)) × Bool :=
  blockLoop env t dim radius count (env.seed 0)

/-- `block_size`, 75. -/
def blockSize : Nat := 131072

/-- The loop over blocks, 79-145; the flag tells that every block had a nonzero value. -/
def writeBlocks (env : Env σ K) (t : DType) (dim n : Nat) (radius : Option K) :
    List Nat → List (List (Val K)) → List (List (Val K)) × Bool
  | [], rows => (rows, true)
  | i :: is, rows =>
    let (b, found) := writeBlock env t dim (min (n - i * blockSize) blockSize) radius
    if found then writeBlocks env t dim n radius is (rows ++ b) else (rows ++ b, false)

/-- The check of the radius, 31-33, 64-66; comparisons with a NaN are false. -/
def badRadius (t : DType) (radius : Option K) : Bool :=
  (t == .int8 || t == .uint8) && (match radius with | none => false | some r => decide (127 < r) || decide (r ≤ 0))

/-- `write_random_data` with `write_random_data_writer`, 23-151. -/
def writeRandomData (env : Env σ K) (t : DType) (dim n : Nat) (radius : Option K) : Except Err Unit × File K :=
  if badRadius t radius then (.error .radius, .absent)
  else if 2 ^ 32 ≤ n ∨ 2 ^ 32 ≤ dim then (.error .metadata, .empty)
  else
    let nblks := (n + blockSize - 1) / blockSize
    let (rows, ok) := writeBlocks env t dim n radius (List.range nblks) []
    (if ok then .ok () else .error .allZero, .data n dim rows)

/-- `main`, bin/random_data_generator.rs 36-57. -/
def main (env : Env σ K) (t : DType) (dim n : Nat) (radius : Option K) : Except Err Unit × File K :=
  let notPositive : Bool := match radius with | none => false | some r => decide (r ≤ 0)
  let tooLarge : Bool := (t == .int8 || t == .uint8) && (match radius with | none => false | some r => decide (127 < r))
  if notPositive then (.error .notPositive, .absent)
  else if tooLarge then (.error .radius, .absent)
  else writeRandomData env t dim n radius

end

end Verif.Tools.RandomData
