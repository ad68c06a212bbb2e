import Mathlib.Algebra.Field.Defs

/-! # Hadamard transforms and the distance-preserving transforms built on them

`diskann-quantization/src/algorithms/hadamard.rs` and `diskann-quantization/src/algorithms/transforms/*.rs`.

A slice is a list and a mutable slice is an argument whose new value is returned. `none` is a panic, a read outside an
allocation, or recursion without end. `f32` is a field `K`: no rounding, overflow or NaN. `sqrt` is a parameter. Machine
integers are `Nat`; the casts to `u32` truncate. Allocation always succeeds. The random number generator is a parameter
that supplies the signs, the samples and the orthogonal matrices. -/

namespace Verif.Rotate

variable {K : Type}

/-! ## The Hadamard transform -/

/-- The instruction sets with an implementation of their own: `hadamard.rs` 47-54 (`Scalar`), 56-68 (`V3`). `V4` runs the
`V3` code (70-82), `Neon` that of the architecture it retargets to (84-100). -/
inductive Arch
  | scalar
  | v3
deriving DecidableEq, Repr

/-- `usize::count_ones`. -/
def popcount (n : Nat) : Nat := if n = 0 then 0 else n % 2 + popcount (n / 2)
termination_by n
decreasing_by omega

/-- `usize::is_power_of_two`. -/
def isPowerOfTwo (n : Nat) : Bool := popcount n == 1

/-- The 8x8 Hadamard matrix. `hadamard.rs` 229-240. -/
def hadamard8 [One K] [Neg K] : List (List K) :=
  [[1, 1, 1, 1, 1, 1, 1, 1],
   [1, -1, 1, -1, 1, -1, 1, -1],
   [1, 1, -1, -1, 1, 1, -1, -1],
   [1, -1, -1, 1, 1, -1, -1, 1],
   [1, 1, 1, 1, -1, -1, -1, -1],
   [1, -1, 1, -1, -1, 1, -1, 1],
   [1, 1, -1, -1, -1, -1, 1, 1],
   [1, -1, -1, 1, -1, 1, 1, -1]]

/-- `splat(v).mul_add_simd(c, d)` on eight lanes. -/
def mulAdd [Mul K] [Add K] (v : K) (c d : List K) : List K := List.zipWith (fun c d => v * c + d) c d

/-- What `process_patch(offset)` does to the register of chunk `r` (`d0` to `d7`). `hadamard.rs` 266-325. -/
def patch [Ring K] (x : List K) (r : Nat) (d : List K) (offset : Nat) : Option (List K) := do
  let c0 ← hadamard8[offset]?
  let c1 ← hadamard8[offset + 1]?
  let v0 ← x[offset + 8 * r]?
  let v1 ← x[offset + 8 * r + 1]?
  some (mulAdd v1 c1 (mulAdd v0 c0 d))

/-- The register of chunk `r` after the four patches. `hadamard.rs` 254-261, 328-331. Simplification: the code applies each
patch to all eight registers before the next patch; the registers do not depend on each other. -/
def register [Ring K] (x : List K) (r : Nat) : Option (List K) :=
  [0, 1, 2, 3].foldlM (fun d o => patch x r d (2 * o)) (List.replicate 8 0)

/-- Lane-wise sum of two registers. -/
def plus [Add K] (a b : List K) : List K := List.zipWith (· + ·) a b

/-- Lane-wise difference of two registers. -/
def minus [Sub K] (a b : List K) : List K := List.zipWith (· - ·) a b

/-- The registers put together into the 64 results. `hadamard.rs` 337-384. -/
def combine [Add K] [Sub K] (d0 d1 d2 d3 d4 d5 d6 d7 : List K) : List K :=
  let e0 := plus d0 d1
  let e1 := minus d0 d1
  let e2 := plus d2 d3
  let e3 := minus d2 d3
  let e4 := plus d4 d5
  let e5 := minus d4 d5
  let e6 := plus d6 d7
  let e7 := minus d6 d7
  let f0 := plus e0 e2
  let f1 := plus e1 e3
  let f2 := minus e0 e2
  let f3 := minus e1 e3
  let f4 := plus e4 e6
  let f5 := plus e5 e7
  let f6 := minus e4 e6
  let f7 := minus e5 e7
  plus f0 f4 ++ (plus f1 f5 ++ (plus f2 f6 ++ (plus f3 f7 ++
    (minus f0 f4 ++ (minus f1 f5 ++ (minus f2 f6 ++ minus f3 f7))))))

/-- `micro_kernel_64`. `hadamard.rs` 242-385. -/
def microKernel64 [Ring K] (x : List K) : Option (List K) := do
  let d0 ← register x 0
  let d1 ← register x 1
  let d2 ← register x 2
  let d3 ← register x 3
  let d4 ← register x 4
  let d5 ← register x 5
  let d6 ← register x 6
  let d7 ← register x 7
  some (combine d0 d1 d2 d3 d4 d5 d6 d7)

/-- The pair at the bottom of the recursion. `hadamard.rs` 158-162, 208-214. -/
def pair [Add K] [Sub K] : List K → List K
  | l :: r :: rest => (l + r) :: (l - r) :: rest
  | x => x

/-- The in-place loop over the two halves; the longer half keeps what is left over. `hadamard.rs` 170-175, 222-227. -/
def halves [Add K] [Sub K] (left right : List K) : List K :=
  (List.zipWith (· + ·) left right ++ left.drop right.length) ++
    (List.zipWith (· - ·) left right ++ right.drop left.length)

/-- `HadamardTransformRecursive::run`: 140-178 (`Scalar`) and 180-227 (`V3`), which differ in the kernel for 64 elements.
A slice shorter than two is split forever. -/
def recursive [Ring K] (arch : Arch) (x : List K) : Option (List K) :=
  if arch = .v3 ∧ x.length = 64 then microKernel64 x
  else if x.length = 2 then some (pair x)
  else if x.length < 2 then none
  else do
    let left ← recursive arch (x.take (x.length / 2))
    let right ← recursive arch (x.drop (x.length / 2))
    some (halves left right)
termination_by x.length
decreasing_by
  · simp only [List.length_take]; omega
  · simp only [List.length_drop]; omega

/-- `hadamard_transform`: `hadamard.rs` 22-27, 113-134. `none` inside is `NotPowerOfTwo`. -/
def hadamardTransform [Field K] (sqrt : K → K) (arch : Arch) (x : List K) : Option (Option (List K)) :=
  if isPowerOfTwo x.length = false then some none
  else if x.length = 1 then some (some x)
  else do
    let y ← recursive arch x
    let m := 1 / sqrt (x.length : K)
    some (some (y.map (· * m)))

/-! ## Pieces shared by the transforms -/

/-- `f32::from_bits(v.to_bits() ^ sign)` for the sign words 0 and 0x8000_0000. Any other word leaves the model. -/
def flip [Neg K] (sign : Nat) (v : K) : Option K :=
  if sign = 0 then some v else if sign = 0x80000000 then some (-v) else none

/-- The loop `zip(dst, src).zip(signs)` that copies `src` with flipped signs; what is left of `dst` stays.
`double_hadamard.rs` 251-253, 266-268; `padding_hadamard.rs` 217-219. -/
def flipInto [Neg K] : List K → List K → List Nat → Option (List K)
  | _ :: dst, v :: src, sign :: signs => do
    let w ← flip sign v
    let rest ← flipInto dst src signs
    some (w :: rest)
  | dst, _, _ => some dst

/-- The loop that gathers the sampled indices, scaled; the rest of `dst` stays. An index outside `tmp` panics.
`double_hadamard.rs` 280-282, `padding_hadamard.rs` 264-268. -/
def gather [Mul K] (tmp : List K) (rescale : K) : List K → List Nat → Option (List K)
  | _ :: dst, i :: indices => do
    let v ← tmp[i]?
    let rest ← gather tmp rescale dst indices
    some (v * rescale :: rest)
  | dst, _ => some dst

/-- `dst.copy_from_slice(src)` panics if the lengths differ. -/
def copyFromSlice (dst src : List K) : Option (List K) := if dst.length = src.length then some src else none

/-- `TransformFailed`, without allocation and sgemm failures. `utils.rs` 11-22. -/
inductive Failed
  | source (expected found : Nat)
  | destination (expected found : Nat)
deriving DecidableEq, Repr

/-- `check_dims`. `utils.rs` 24-44. -/
def checkDims (dst src : List K) (inputDim outputDim : Nat) : Option Failed :=
  if src.length ≠ inputDim then some (.source inputDim src.length)
  else if dst.length ≠ outputDim then some (.destination outputDim dst.length)
  else none

/-- `is_sign`. `utils.rs` 46-48. -/
def isSign (x : Nat) : Bool := x == 0 || x == 0x80000000

/-- `sign_to_bool`. `utils.rs` 50-53. -/
def signToBool (x : Nat) : Bool := x == 0x80000000

/-- `bool_to_sign`. `utils.rs` 55-58; also the draw of a sign, `double_hadamard.rs` 119-122. -/
def boolToSign (b : Bool) : Nat := if b then 0x80000000 else 0

/-- `x as u32`. -/
def asU32 (x : Nat) : Nat := x % 2 ^ 32

/-- What the random number generator answers: the booleans it draws in order, the sample of `amount` indices below
`length` (`rand::seq::index::sample`), and the random orthogonal matrix of a dimension
(`diskann_linalg::random_distance_preserving_matrix`) as its rows. -/
structure Draws (K : Type) where
  sign : Nat → Bool
  sample : Nat → Nat → List Nat
  matrix : Nat → List (List K)

/-- `subsample_indices`. `utils.rs` 60-78. -/
def subsampleIndices (d : Draws K) (length amount : Nat) : List Nat :=
  ((d.sample length amount).map asU32).mergeSort

/-- `is_strictly_monotonic`. `diskann-quantization/src/utils.rs` 81-101. -/
def isStrictlyMonotonic : List Nat → Bool
  | [] => true
  | [_] => true
  | x :: y :: rest => if y ≤ x then false else isStrictlyMonotonic (y :: rest)

/-- `TargetDim`. `mod.rs` 321-352. -/
inductive TargetDim
  | same
  | natural
  | override (target : Nat)
deriving DecidableEq, Repr

/-! ## The double Hadamard transform -/

/-- `DoubleHadamard`. `double_hadamard.rs` 52-75. -/
structure Double where
  signs0 : List Nat
  signs1 : List Nat
  targetDim : Nat
  subsample : Option (List Nat)
deriving DecidableEq, Repr

/-- The output dimension asked for. `double_hadamard.rs` 108-112. -/
def Double.target (dim : Nat) : TargetDim → Nat
  | .override target => target
  | .same => dim
  | .natural => dim

/-- `DoubleHadamard::new`. `double_hadamard.rs` 97-146. The signs are drawn one after the other. -/
def Double.new (d : Draws K) (dim : Nat) (target : TargetDim) : Double :=
  let targetDim := Double.target dim target
  let intermediate := max dim targetDim
  { signs0 := (List.range dim).map fun i => boolToSign (d.sign i)
    signs1 := (List.range intermediate).map fun i => boolToSign (d.sign (dim + i))
    targetDim := targetDim
    subsample := if dim > targetDim then some (subsampleIndices d dim targetDim) else none }

/-- `DoubleHadamardError`. `double_hadamard.rs` 304-325. -/
inductive DoubleError
  | signs0Empty
  | signs0Invalid
  | signs1Invalid
  | signs1TooSmall
  | invalidSubsampleLength
  | subsampleNotMonotonic
  | lastSubsampleTooLarge
deriving DecidableEq, Repr

/-- The checks on the sample, with the target dimension they yield; `debug` is whether debug assertions are compiled in.
`double_hadamard.rs` 169-201. -/
def Double.checkSubsample (debug : Bool) (signs1 : List Nat) : Option (List Nat) → Option (Except DoubleError Nat)
  | none => some (.ok signs1.length)
  | some s =>
    if isStrictlyMonotonic s = false then some (.error .subsampleNotMonotonic)
    else match s.getLast? with
      | none => some (.error .invalidSubsampleLength)
      | some last =>
        if last ≥ signs1.length then some (.error .lastSubsampleTooLarge)
        else if debug = true ∧ ¬ s.length < signs1.length then none
        else some (.ok s.length)

/-- `DoubleHadamard::try_from_parts`. `double_hadamard.rs` 148-209. -/
def Double.tryFromParts (debug : Bool) (signs0 signs1 : List Nat) (subsample : Option (List Nat)) :
    Option (Except DoubleError Double) :=
  if signs0 = [] then some (.error .signs0Empty)
  else if signs1.length < signs0.length then some (.error .signs1TooSmall)
  else if signs0.all isSign = false then some (.error .signs0Invalid)
  else if signs1.all isSign = false then some (.error .signs1Invalid)
  else match Double.checkSubsample debug signs1 subsample with
    | none => none
    | some (.error e) => some (.error e)
    | some (.ok targetDim) => some (.ok ⟨signs0, signs1, targetDim, subsample⟩)

/-- `input_dim`. `double_hadamard.rs` 211-214. -/
def Double.inputDim (t : Double) : Nat := t.signs0.length

/-- `output_dim`. `double_hadamard.rs` 216-219. -/
def Double.outputDim (t : Double) : Nat := t.targetDim

/-- `preserves_norms`. `double_hadamard.rs` 221-227. -/
def Double.preservesNorms (t : Double) : Bool := t.subsample.isNone

/-- `intermediate_dim`. `double_hadamard.rs` 229-231. -/
def Double.intermediateDim (t : Double) : Nat := max t.inputDim t.outputDim

/-- `1 << (usize::BITS - n.leading_zeros() - 1)`: the greatest power of two not above `n`; for 0 the shift underflows.
`double_hadamard.rs` 255. -/
def splitOf (n : Nat) : Option Nat := if n = 0 then none else some (2 ^ Nat.log2 n)

/-- `hadamard_transform(&mut tmp[lo..hi]).unwrap()`. `double_hadamard.rs` 261-262, 270-271. -/
def hadamardRange [Field K] (sqrt : K → K) (arch : Arch) (tmp : List K) (lo hi : Nat) : Option (List K) :=
  if lo ≤ hi ∧ hi ≤ tmp.length then
    match hadamardTransform sqrt arch ((tmp.take hi).drop lo) with
    | some (some y) => some (tmp.take lo ++ y ++ tmp.drop hi)
    | _ => none
  else none

/-- The result written to `dst`. `double_hadamard.rs` 273-284. -/
def Double.finish [Field K] (sqrt : K → K) (dst tmp : List K) : Option (List Nat) → Option (List K)
  | none => copyFromSlice dst tmp
  | some indices => gather tmp (sqrt ((tmp.length : K) / (indices.length : K))) dst indices

/-- `DoubleHadamard::transform_into`, the part after the check of the lengths. `double_hadamard.rs` 247-286. -/
def Double.body [Field K] (sqrt : K → K) (arch : Arch) (t : Double) (dst src : List K) : Option (List K) := do
  let tmp ← flipInto (List.replicate t.intermediateDim 0) src t.signs0
  let split ← splitOf t.intermediateDim
  let tmp ← hadamardRange sqrt arch tmp 0 split
  let tmp ← flipInto tmp tmp t.signs1
  let tmp ← hadamardRange sqrt arch tmp (t.intermediateDim - split) tmp.length
  Double.finish sqrt dst tmp t.subsample

/-- `DoubleHadamard::transform_into`. `double_hadamard.rs` 233-286. -/
def Double.transformInto [Field K] (sqrt : K → K) (arch : Arch) (t : Double) (dst src : List K) :
    Option (Except Failed (List K)) :=
  match checkDims dst src t.inputDim t.outputDim with
  | some e => some (.error e)
  | none => (t.body sqrt arch dst src).map .ok

/-! ## The padding Hadamard transform -/

/-- `PaddingHadamard`. `padding_hadamard.rs` 42-69. -/
structure Padding where
  signs : List Nat
  paddedDim : Nat
  subsample : Option (List Nat)
deriving DecidableEq, Repr

/-- The least power of two not below `n`: `usize::next_power_of_two`, without overflow. -/
def nextPowerOfTwo (n : Nat) : Nat := if n ≤ 1 then 1 else 2 * 2 ^ Nat.log2 (n - 1)

/-- The padded and the target dimension. `padding_hadamard.rs` 109-118. -/
def Padding.dims (dim : Nat) : TargetDim → Nat × Nat
  | .same => (nextPowerOfTwo dim, dim)
  | .natural => (nextPowerOfTwo dim, nextPowerOfTwo dim)
  | .override target => (nextPowerOfTwo (max target dim), target)

/-- `PaddingHadamard::new`. `padding_hadamard.rs` 93-132. -/
def Padding.new (d : Draws K) (dim : Nat) (target : TargetDim) : Padding :=
  let (paddedDim, targetDim) := Padding.dims dim target
  { signs := (List.range dim).map fun i => boolToSign (d.sign i)
    paddedDim := paddedDim
    subsample := if paddedDim > targetDim then some (subsampleIndices d paddedDim targetDim) else none }

/-- `PaddingHadamardError`. `padding_hadamard.rs` 290-307. -/
inductive PaddingError
  | invalidSignRepresentation
  | signsTooLong
  | dimNotPowerOfTwo
  | subsampleEmpty
  | subsampleNotMonotonic
  | lastSubsampleTooLarge
deriving DecidableEq, Repr

/-- The checks on the sample. `padding_hadamard.rs` 153-165. -/
def Padding.checkSubsample (paddedDim : Nat) : Option (List Nat) → Option PaddingError
  | none => none
  | some s =>
    if isStrictlyMonotonic s = false then some .subsampleNotMonotonic
    else match s.getLast? with
      | none => some .subsampleEmpty
      | some last => if last ≥ paddedDim then some .lastSubsampleTooLarge else none

/-- `PaddingHadamard::try_from_parts`. `padding_hadamard.rs` 134-172. -/
def Padding.tryFromParts (signs : List Nat) (paddedDim : Nat) (subsample : Option (List Nat)) :
    Except PaddingError Padding :=
  if signs.all isSign = false then .error .invalidSignRepresentation
  else if signs.length > paddedDim then .error .signsTooLong
  else if isPowerOfTwo paddedDim = false then .error .dimNotPowerOfTwo
  else match Padding.checkSubsample paddedDim subsample with
    | some e => .error e
    | none => .ok ⟨signs, paddedDim, subsample⟩

/-- `input_dim`. `padding_hadamard.rs` 174-177. -/
def Padding.inputDim (t : Padding) : Nat := t.signs.length

/-- `output_dim`. `padding_hadamard.rs` 179-185. -/
def Padding.outputDim (t : Padding) : Nat :=
  match t.subsample with
  | none => t.paddedDim
  | some v => v.length

/-- `preserves_norms`. `padding_hadamard.rs` 187-193. -/
def Padding.preservesNorms (t : Padding) : Bool := t.subsample.isNone

/-- `copy_and_flip_signs`. `padding_hadamard.rs` 203-225. -/
def Padding.copyAndFlipSigns [Zero K] [Neg K] (t : Padding) (dst src : List K) : Option (List K) := do
  let dst ← flipInto dst src t.signs
  some (dst.take t.inputDim ++ (dst.drop t.inputDim).map fun _ => 0)

/-- `PaddingHadamard::transform_into`, the part after the check of the lengths. `padding_hadamard.rs` 246-272. -/
def Padding.body [Field K] (sqrt : K → K) (arch : Arch) (t : Padding) (dst src : List K) : Option (List K) :=
  match t.subsample with
  | none => do
    let dst ← t.copyAndFlipSigns dst src
    hadamardRange sqrt arch dst 0 dst.length
  | some indices => do
    let tmp ← t.copyAndFlipSigns (List.replicate t.paddedDim 0) src
    let tmp ← hadamardRange sqrt arch tmp 0 tmp.length
    gather tmp (sqrt ((tmp.length : K) / (indices.length : K))) dst indices

/-- `PaddingHadamard::transform_into`. `padding_hadamard.rs` 227-274. -/
def Padding.transformInto [Field K] (sqrt : K → K) (arch : Arch) (t : Padding) (dst src : List K) :
    Option (Except Failed (List K)) :=
  match checkDims dst src t.inputDim t.outputDim with
  | some e => some (.error e)
  | none => (t.body sqrt arch dst src).map .ok

/-! ## The dense rotation -/

/-- `RandomRotation`: the matrix as its rows, and its numbers of rows and columns. `random_rotation.rs` 30-34. -/
structure Rotation (K : Type) where
  rows : List (List K)
  nrows : Nat
  ncols : Nat
deriving DecidableEq, Repr

/-- The target dimension and the dimension of the sampled matrix. `random_rotation.rs` 77-87. -/
def Rotation.dims (dim : Nat) : TargetDim → Nat × Nat
  | .same => (dim, dim)
  | .natural => (dim, dim)
  | .override target => if target ≤ dim then (target, dim) else (target, target)

/-- The rows kept and rescaled when the dimension shrinks. `random_rotation.rs` 103-113. -/
def Rotation.pickRows [Field K] (sqrt : K → K) (initial : List (List K)) (dim target : Nat) (indices : List Nat) :
    Option (List (List K)) :=
  indices.mapM fun i => initial[i]?.map fun row => row.map (sqrt ((dim : K) / (target : K)) * ·)

/-- `RandomRotation::new`. `random_rotation.rs` 53-125. Simplification: the copies into a fresh matrix of zeros are the
copied rows. -/
def Rotation.new [Field K] (sqrt : K → K) (d : Draws K) (dim : Nat) (target : TargetDim) : Option (Rotation K) :=
  let (targetDim, matrixDim) := Rotation.dims dim target
  let initial := d.matrix matrixDim
  if targetDim = dim then some ⟨initial, targetDim, dim⟩
  else if targetDim < dim then
    (Rotation.pickRows sqrt initial dim targetDim (d.sample dim targetDim)).map fun rows => ⟨rows, targetDim, dim⟩
  else some ⟨initial.map (·.take dim), targetDim, dim⟩

/-- `preserves_norms`. `random_rotation.rs` 137-143. -/
def Rotation.preservesNorms (t : Rotation K) : Bool := t.ncols ≤ t.nrows

/-- `RandomRotation::transform_into`: the product of the matrix and the vector. `random_rotation.rs` 153-171. -/
def Rotation.transformInto [Field K] (t : Rotation K) (dst src : List K) : Except Failed (List K) :=
  match checkDims dst src t.ncols t.nrows with
  | some e => .error e
  | none => .ok (t.rows.map fun row => (List.zipWith (· * ·) row src).sum)

/-! ## The transform chosen by the caller -/

/-- `TransformKind`. `mod.rs` 58-103. -/
inductive Kind
  | padding (target : TargetDim)
  | double (target : TargetDim)
  | null
  | rotation (target : TargetDim)
deriving DecidableEq, Repr

/-- `Transform`. `mod.rs` 113-125. The null transform is its dimension (`null.rs` 17-20). -/
inductive Transform (K : Type)
  | padding (t : Padding)
  | double (t : Double)
  | null (dim : Nat)
  | rotation (t : Rotation K)
deriving DecidableEq, Repr

/-- `NewTransformError`, without allocation failures. `mod.rs` 105-111. -/
inductive NewError
  | rngMissing (kind : Kind)
deriving DecidableEq, Repr

/-- A rotation as a transform. -/
def Transform.ofRotation (r : Option (Rotation K)) : Option (Except NewError (Transform K)) :=
  r.map fun t => .ok (.rotation t)

/-- `Transform::new`. `mod.rs` 141-170. -/
def Transform.new [Field K] (sqrt : K → K) (kind : Kind) (dim : Nat) (rng : Option (Draws K)) :
    Option (Except NewError (Transform K)) :=
  match kind, rng with
  | .padding target, some d => some (.ok (.padding (Padding.new d dim target)))
  | .double target, some d => some (.ok (.double (Double.new d dim target)))
  | .null, _ => some (.ok (.null dim))
  | .rotation target, some d => Transform.ofRotation (Rotation.new sqrt d dim target)
  | kind, none => some (.error (.rngMissing kind))

/-- `input_dim`. `mod.rs` 172-180. -/
def Transform.inputDim : Transform K → Nat
  | .padding t => t.inputDim
  | .double t => t.inputDim
  | .null dim => dim
  | .rotation t => t.ncols

/-- `output_dim`. `mod.rs` 181-189. -/
def Transform.outputDim : Transform K → Nat
  | .padding t => t.outputDim
  | .double t => t.outputDim
  | .null dim => dim
  | .rotation t => t.nrows

/-- `preserves_norms`. `mod.rs` 191-199. -/
def Transform.preservesNorms : Transform K → Bool
  | .padding t => t.preservesNorms
  | .double t => t.preservesNorms
  | .null _ => true
  | .rotation t => t.preservesNorms

/-- `NullTransform::transform_into`. `null.rs` 36-40. -/
def nullTransformInto (dim : Nat) (dst src : List K) : Option (Except Failed (List K)) :=
  match checkDims dst src dim dim with
  | some e => some (.error e)
  | none => (copyFromSlice dst src).map .ok

/-- `transform_into`. `mod.rs` 201-214. -/
def Transform.transformInto [Field K] (sqrt : K → K) (arch : Arch) (t : Transform K) (dst src : List K) :
    Option (Except Failed (List K)) :=
  match t with
  | .padding t => t.transformInto sqrt arch dst src
  | .double t => t.transformInto sqrt arch dst src
  | .null dim => nullTransformInto dim dst src
  | .rotation t => some (t.transformInto dst src)

/-! ## Serialization -/

/-- The serialized transforms; the FlatBuffers encoding of these fields is not modelled. -/
inductive Proto (K : Type)
  | padding (signs : List Bool) (paddedDim : Nat) (subsample : Option (List Nat))
  | double (signs0 signs1 : List Bool) (subsample : Option (List Nat))
  | null (dim : Nat)
  | rotation (data : List K) (nrows ncols : Nat)
deriving DecidableEq, Repr

/-- `Transform::pack`: `mod.rs` 249-285, `padding_hadamard.rs` 315-339, `double_hadamard.rs` 334-361, `null.rs` 56-68,
`random_rotation.rs` 189-208. -/
def Transform.pack : Transform K → Proto K
  | .padding t => .padding (t.signs.map signToBool) (asU32 t.paddedDim) t.subsample
  | .double t => .double (t.signs0.map signToBool) (t.signs1.map signToBool) t.subsample
  | .null dim => .null (asU32 dim)
  | .rotation t => .rotation t.rows.flatten (asU32 t.nrows) (asU32 t.ncols)

/-- `TransformError`. `mod.rs` 230-247. -/
inductive UnpackError
  | padding (e : PaddingError)
  | double (e : DoubleError)
  | nullDim
  | rotationDim
  | rotationRows
  | rotationCols
deriving DecidableEq, Repr

/-- `n` consecutive pieces of length `m`: the rows of a dense row-major matrix. -/
def chunks (m : Nat) : Nat → List K → List (List K)
  | 0, _ => []
  | n + 1, l => l.take m :: chunks m n (l.drop m)

/-- `RandomRotation::try_unpack`. `random_rotation.rs` 210-230. -/
def Rotation.tryUnpack (data : List K) (nrows ncols : Nat) : Except UnpackError (Rotation K) :=
  if nrows = 0 then .error .rotationRows
  else if ncols = 0 then .error .rotationCols
  else if data.length ≠ nrows * ncols then .error .rotationDim
  else .ok ⟨chunks ncols nrows data, nrows, ncols⟩

/-- The result of `PaddingHadamard::try_from_parts` as a transform. -/
def Transform.ofPadding : Except PaddingError Padding → Except UnpackError (Transform K)
  | .ok t => .ok (.padding t)
  | .error e => .error (.padding e)

/-- The result of `DoubleHadamard::try_from_parts` as a transform. -/
def Transform.ofDouble : Except DoubleError Double → Except UnpackError (Transform K)
  | .ok t => .ok (.double t)
  | .error e => .error (.double e)

/-- `Transform::try_unpack`: `mod.rs` 287-318, `padding_hadamard.rs` 341-358, `double_hadamard.rs` 363-378, `null.rs`
70-80. -/
def Transform.tryUnpack (debug : Bool) : Proto K → Option (Except UnpackError (Transform K))
  | .padding signs paddedDim subsample =>
    some (Transform.ofPadding (Padding.tryFromParts (signs.map boolToSign) paddedDim subsample))
  | .double signs0 signs1 subsample =>
    (Double.tryFromParts debug (signs0.map boolToSign) (signs1.map boolToSign) subsample).map Transform.ofDouble
  | .null dim => some (if dim = 0 then .error .nullDim else .ok (.null dim))
  | .rotation data nrows ncols => some ((Rotation.tryUnpack data nrows ncols).map .rotation)

end Verif.Rotate
