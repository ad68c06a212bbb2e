import Verif.Quant.ScalarModel

/-!
# MinMax quantization

Model of `diskann-quantization/src/minmax/{quantizer,vectors,recompress}.rs`.

Simplifications, for the whole file:
* `f32` values are exact rationals; rounding, overflow and infinities are not modelled.  A
  NaN component is `none`.
* The transform applied before compression is a parameter.
* Codes are a list of naturals (the packed storage is the subject of C46).
* What is left in the destination after an error is not modelled.
-/

namespace Verif.Quant.MinMax

open Verif.Quant.Scalar (bitScale roundAway clamp intKernel)

/-- `MinMaxCompensation` with the codes (`minmax/vectors.rs` 45–51, 104). -/
structure Data where
  codes : List Nat
  dim : Nat
  b : Rat
  n : Rat
  a : Rat
  normSq : Rat
deriving DecidableEq

/-- `MinMaxQuantizer` (`minmax/quantizer.rs` 69–79): input dimension, output dimension and
action of the transform, and the grid scale. -/
structure Quantizer where
  dim : Nat
  outDim : Nat
  transform : List (Option Rat) → List (Option Rat)
  gridScale : Rat

/-- The end points before the grid scale is applied (`minmax/quantizer.rs` 118–141), on a
vector without NaN.  One bit: the mean of the values below the mean, cut off at the mean,
and the mean of the others, cut off at the mean; an empty group gives `0 / 0 = NaN`, and
`NaN.min(mean) = mean`.  Otherwise minimum and maximum.  `none`: the empty vector, NaN. -/
def ends (n : Nat) (v : List Rat) : Option (Rat × Rat) :=
  match v with
  | [] => none
  | x :: xs =>
    if n = 1 then
      let mean := v.sum / v.length
      let lo := v.filter (fun x => decide (x < mean))
      let hi := v.filter (fun x => !decide (x < mean))
      some ((if lo = [] then mean else min (lo.sum / lo.length) mean),
            (if hi = [] then mean else max (hi.sum / hi.length) mean))
    else
      some (xs.foldl min x, xs.foldl max x)

/-- `get_range` (`minmax/quantizer.rs` 117–151). -/
def getRange (n : Nat) (g : Rat) (v : List Rat) : Option (Rat × Rat) :=
  (ends n v).map fun p =>
    let width := (p.2 - p.1) / 2
    let mid := p.1 + width
    (mid - width * g, mid + width * g)

/-- The smallest width of a range, `1e-8` (`minmax/quantizer.rs` 186).  The `f32` literal is
taken as the exact decimal. -/
def minWidth : Rat := 1 / 100000000

/-- The code of one value (`minmax/quantizer.rs` 195–197). -/
def codeOf (n : Nat) (a b v : Rat) : Nat := (roundAway (clamp 0 (bitScale n) ((v - b) / a))).toNat

/-- The loop of `compress` (`minmax/quantizer.rs` 187–208): codes, `norm_squared`,
`code_sum` and `loss`, in this order. -/
def encode (n : Nat) (a b : Rat) : List Rat → List Nat × Rat × Rat × Rat
  | [] => ([], 0, 0, 0)
  | v :: vs =>
    let code := codeOf n a b v
    let vr := (code : Rat) * a + b
    let r := encode n a b vs
    (code :: r.1, vr * vr + r.2.1, (code : Rat) + r.2.2.1, (vr - v) * (vr - v) + r.2.2.2)

/-- The outcome of a compression. -/
inductive CRes (α : Type) where
  /-- A length assertion failed. -/
  | panic
  /-- `Err(InputContainsNaN)`. -/
  | nan
  | ok (out : α)
deriving DecidableEq

/-- All components of a vector, if none is NaN. -/
def values : List (Option Rat) → Option (List Rat)
  | [] => some []
  | none :: _ => none
  | some v :: vs => (values vs).map (v :: ·)

/-- `MinMaxQuantizer::compress` (`minmax/quantizer.rs` 153–228): the data and the loss
(`L2Loss::as_f32`: zero for `L2Loss::Zero`).  The NaN test is on the transformed vector.
`ends = none` is an empty vector; the code then stores NaN for `a` and `b` of a vector
without codes, modelled by zeros. -/
def compress (n : Nat) (q : Quantizer) (frm : List (Option Rat)) (intoLen : Nat) :
    CRes (Data × Rat) :=
  if frm.length = q.dim ∧ q.outDim = intoLen then
    match values (q.transform frm) with
    | none => .nan
    | some v =>
      let r := (getRange n q.gridScale v).getD (0, 0)
      let a := max (r.2 - r.1) minWidth / (bitScale n : Rat)
      let e := encode n a r.1 v
      .ok ({ codes := e.1, dim := q.outDim, b := r.1, a := a, n := a * e.2.2.1
             normSq := e.2.1 },
           if 0 < e.2.2.2 then e.2.2.2 else 0)
  else .panic

/-- `decompress_into` (`minmax/vectors.rs` 136–150); `none`: `LengthMismatch`. -/
def decompress (d : Data) (dstLen : Nat) : Option (List Rat) :=
  if dstLen = d.codes.length then some (d.codes.map (fun (c : Nat) => (c : Rat) * d.a + d.b)) else none

/-- A full precision query with its precomputed values (`minmax/vectors.rs` 180–185). -/
structure FullQuery where
  vec : List Rat
  sum : Rat
  normSq : Rat
deriving DecidableEq

/-- `CompressInto<&[T], FullQueryMut>` (`minmax/quantizer.rs` 393–416).  Here the NaN test
is on the input.  A transform producing NaN from an input without NaN is not modelled
(`.nan`). -/
def compressQuery (q : Quantizer) (frm : List (Option Rat)) (toLen : Nat) : CRes FullQuery :=
  if frm.length = q.dim ∧ q.outDim = toLen then
    match values frm with
    | none => .nan
    | some _ =>
      match values (q.transform frm) with
      | none => .nan
      | some v => .ok { vec := v, sum := v.sum, normSq := (v.map (fun x => x * x)).sum }
  else .panic

/-- `kernel` with the identity: `MinMaxIP`, mathematical value
(`minmax/vectors.rs` 206–229, 245–250).  Outer `none`: length error; inner `none`: overflow
of the 32-bit integer product (see `Scalar.intKernel`). -/
def ipValue (x y : Data) : Option (Option Rat) :=
  (intKernel (· * ·) x.codes y.codes).map (·.map fun (raw : Nat) =>
    x.a * y.a * (raw : Rat) + x.n * y.b + y.n * x.b + x.b * y.b * (x.codes.length : Rat))

/-- `MinMaxIP`, similarity score (`minmax/vectors.rs` 265–268). -/
def ipDist (x y : Data) : Option (Option Rat) := (ipValue x y).map (·.map (fun v => -v))

/-- `MinMaxL2Squared` (`minmax/vectors.rs` 322–348). -/
def sqL2 (x y : Data) : Option (Option Rat) :=
  (ipValue x y).map (·.map (fun v => -2 * v + x.normSq + y.normSq))

/-- `MinMaxCosineNormalized` (`minmax/vectors.rs` 451–454). -/
def cosNormalized (x y : Data) : Option (Option Rat) :=
  (ipValue x y).map (·.map (fun v => 1 - v))

/-- Division as the code performs it: `0 / 0` and `x / 0` give no finite value (`none`). -/
def fdiv (x y : Rat) : Option Rat := if y = 0 then none else some (x / y)

/-- `MinMaxCosine` (`minmax/vectors.rs` 410–414); the square root is a parameter.  Inner
`none`: overflow, or not a finite value. -/
def cosine (sqrt : Rat → Rat) (x y : Data) : Option (Option Rat) :=
  (ipValue x y).map fun r => r.bind fun v =>
    (fdiv v (sqrt x.normSq * sqrt y.normSq)).map (fun c => 1 - c)

/-- The product of a full precision query with codes (`bits/distances.rs`,
`InnerProduct` on `&[f32]` and a bit slice); `none`: length error. -/
def queryRaw (x : List Rat) (codes : List Nat) : Option Rat :=
  if x.length = codes.length then
    some (List.zipWith (fun a (c : Nat) => a * (c : Rat)) x codes).sum
  else none

/-- `MinMaxIP` of a full precision query and a compressed vector, mathematical value
(`minmax/vectors.rs` 283–288). -/
def queryIp (x : FullQuery) (y : Data) : Option Rat :=
  (queryRaw x.vec y.codes).map (fun raw => raw * y.a + x.sum * y.b)

/-- `MinMaxL2Squared` of a full precision query and a compressed vector
(`minmax/vectors.rs` 362–371). -/
def queryL2 (x : FullQuery) (y : Data) : Option Rat :=
  (queryRaw x.vec y.codes).map (fun raw => x.normSq + y.normSq - 2 * (raw * y.a + x.sum * y.b))

/-- `f32::round_ties_even`. -/
def roundEven (q : Rat) : Int :=
  let f := ⌊q⌋
  if q - f < 1 / 2 then f
  else if 1 / 2 < q - f then f + 1
  else if f % 2 = 0 then f else f + 1

/-- The code written by the recompressor (`minmax/recompress.rs` 193–195): rounded first,
then clamped, then converted. -/
def recode (m : Nat) (offset codeScale : Rat) (old : Nat) : Nat :=
  let r := roundEven (((old : Rat) - offset) * codeScale)
  (max 0 (min (bitScale m : Int) r)).toNat

/-- `recompress_kernel` (`minmax/recompress.rs` 141–222).  `none`: `DimensionMismatch`. -/
def recompress (n m : Nat) (g : Rat) (src : Data) (dstLen : Nat) : Option Data :=
  if src.codes.length = dstLen then
    let scaleN : Rat := bitScale n
    let scaleM : Rat := bitScale m
    let offset := scaleN * (1 - g) * (1 / 2)
    let codeScale := scaleM / (scaleN * g)
    let newA := src.a / codeScale
    let newB := src.b + src.a * offset
    let codes := src.codes.map (recode m offset codeScale)
    some { codes := codes, dim := src.codes.length, b := newB, a := newA
           n := newA * (codes.map (fun (c : Nat) => (c : Rat))).sum
           normSq := (codes.map (fun (c : Nat) =>
             ((c : Rat) * newA + newB) * ((c : Rat) * newA + newB))).sum }
  else none

end Verif.Quant.MinMax
