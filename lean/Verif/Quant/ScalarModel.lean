import Mathlib.Data.Rat.Floor
import Mathlib.Algebra.Order.Field.Rat

/-!
# Scalar quantization

Model of `diskann-quantization/src/scalar/{mod,quantizer,vectors,train}.rs`.

Simplifications, for the whole file:
* `f32` values are exact rationals; rounding, overflow to infinity and denormals are not
  modelled.  A NaN component is `none`.  Infinite components are not modelled.  The one
  infinity the code can produce from finite data, `bit_scale / 0`, is modelled
  (`codeOf`).
* Codes are a list of naturals.  That the packed storage returns the codes written into it
  is the subject of C46 and C47.
-/

namespace Verif.Quant.Scalar

/-- `bit_scale::<NBITS>()`: the largest code, `2^NBITS - 1`
(`scalar/mod.rs` 129–131; also the end of `Unsigned::domain_const`, `bits/slice.rs`). -/
def bitScale (n : Nat) : Nat := 2 ^ n - 1

/-- `f32::round`: to the nearest integer, ties away from zero. -/
def roundAway (q : Rat) : Int := if 0 ≤ q then ⌊q + 1 / 2⌋ else -⌊-q + 1 / 2⌋

/-- `f32::clamp`. -/
def clamp (lo hi q : Rat) : Rat := if q < lo then lo else if hi < q then hi else q

/-- `ScalarQuantizer` (`scalar/quantizer.rs` 86–113).  `mean_norm` plays no part in
compression and is left out. -/
structure Quantizer where
  scale : Rat
  shift : List Rat
  shiftSquareNorm : Rat

/-- `ScalarQuantizer::new` (`scalar/quantizer.rs` 116–126): the square norm of the shift is
computed here. -/
def Quantizer.new (scale : Rat) (shift : List Rat) : Quantizer :=
  { scale := scale, shift := shift, shiftSquareNorm := (shift.map (fun s => s * s)).sum }

/-- The floating-point code of one component (`scalar/quantizer.rs` 206–222):
`((f - s) * inverse_scale).clamp(min, max).round()` with
`inverse_scale = bit_scale / scale`.  With `scale = 0` the inverse scale is `+inf`, and
`(f - s) * inf` is `+inf`, `-inf`, or NaN (`none`) when `f = s`; `clamp` keeps NaN. -/
def codeOf (n : Nat) (scale s : Rat) : Option Rat → Option Nat
  | none => none
  | some f =>
    if scale = 0 then
      if f = s then none
      else if s < f then some (bitScale n)
      else some 0
    else
      some (roundAway (clamp 0 (bitScale n) ((f - s) * (bitScale n / scale)))).toNat

/-- `code as u8` (`scalar/quantizer.rs` 231): NaN becomes 0. -/
def stored (c : Option Nat) : Nat := c.getD 0

/-- A compressed vector: codes and compensation (`scalar/vectors.rs` 153–174);
`comp = none` is NaN. -/
structure CVec where
  codes : List Nat
  comp : Option Rat
deriving DecidableEq

/-- The dot product of the floating-point codes with the shift, accumulated by the callback
of `compress_into` (`scalar/quantizer.rs` 416–426).  One NaN code makes it NaN. -/
def codeDot : List (Option Nat) → List Rat → Option Rat
  | some c :: cs, s :: ss => (codeDot cs ss).map (fun d => (c : Rat) * s + d)
  | none :: _, _ :: _ => none
  | _, _ => some 0

/-- `CompressInto<&[T], MutCompensatedVectorRef>::compress_into`
(`scalar/quantizer.rs` 190–239 and 407–431).  Outer `none`: one of the two length
assertions fails (panic).  The flag is `true` when `Err(InputContainsNaN)` is returned; the
destination is written either way. -/
def compress (n : Nat) (q : Quantizer) (frm : List (Option Rat)) (intoLen : Nat) :
    Option (CVec × Bool) :=
  if frm.length = q.shift.length ∧ intoLen = q.shift.length then
    let codes := List.zipWith (fun f s => codeOf n q.scale s f) frm q.shift
    some ({ codes := codes.map stored
            comp := (codeDot codes q.shift).map (fun d => q.scale * (1 / (bitScale n : Rat)) * d) },
          frm.any (·.isNone))
  else none

/-- The integer kernels `SquaredL2` and `InnerProduct` on two code slices
(`bits/distances.rs`): an error (`none`, outer) on different lengths; the 32-bit
accumulators are modelled as exact below `2^31` and as unspecified (`none`, inner) from
there on.  The kernels themselves are not modelled here. -/
def intKernel (f : Nat → Nat → Nat) (x y : List Nat) : Option (Option Nat) :=
  if x.length = y.length then
    let s := (List.zipWith f x y).sum
    some (if s < 2 ^ 31 then some s else none)
  else none

/-- `CompensatedSquaredL2` obtained with `as_functor`, mathematical value = distance
(`scalar/quantizer.rs` 316–321, `scalar/vectors.rs` 220–272).  Outer `none`: length error.
Inner `none`: integer overflow, unspecified. -/
def sqL2 (n : Nat) (q : Quantizer) (x y : CVec) : Option (Option Rat) :=
  (intKernel (fun a b => (if a ≤ b then b - a else a - b) ^ 2) x.codes y.codes).map fun (r : Option Nat) =>
    r.map fun (s : Nat) =>
      (1 / (bitScale n : Rat)) * (1 / (bitScale n : Rat)) * (q.scale * q.scale) * (s : Rat)

/-- `CompensatedIP`, mathematical value (`scalar/quantizer.rs` 323–328,
`scalar/vectors.rs` 324–340).  Inner `none`: NaN (a compensation is NaN) or integer
overflow. -/
def ipValue (n : Nat) (q : Quantizer) (x y : CVec) : Option (Option Rat) :=
  (intKernel (· * ·) x.codes y.codes).map fun (r : Option Nat) =>
    match r, x.comp, y.comp with
    | some s, some cx, some cy =>
      some (((1 / (bitScale n : Rat)) * (1 / (bitScale n : Rat)) * (q.scale * q.scale)) * (s : Rat)
        + q.shiftSquareNorm + (cy + cx))
    | _, _, _ => none

/-- `CompensatedIP`, similarity score: the negated value (`scalar/vectors.rs` 368–375). -/
def ipDist (n : Nat) (q : Quantizer) (x y : CVec) : Option (Option Rat) :=
  (ipValue n q x y).map (·.map (fun v => -v))

/-- `CompensatedCosineNormalized` (`scalar/vectors.rs` 424–463): the value is
`1 - L2 / 2`, the similarity score `1 - (1 - L2 / 2)`. -/
def cosDist (n : Nat) (q : Quantizer) (x y : CVec) : Option (Option Rat) :=
  (sqL2 n q x y).map (·.map (fun l => 1 - (1 - l / 2)))

/-- One column of the training matrix, given by its rows. -/
def column (rows : List (List Rat)) (j : Nat) : List Rat := rows.map (fun r => r.getD j 0)

/-- The mean of column `j` (`compute_means_and_average_norm`, `utils.rs` 108–140). -/
def colMean (rows : List (List Rat)) (j : Nat) : Rat := (column rows j).sum / rows.length

/-- The variance of column `j` (`compute_variances`, `utils.rs` 180–200). -/
def colVar (rows : List (List Rat)) (j : Nat) : Rat :=
  ((column rows j).map (fun r => (r - colMean rows j) * (r - colMean rows j))).sum / rows.length

/-- `ScalarQuantizationParameters::train` (`scalar/train.rs` 74–90).  `none`: no training
rows, every mean is NaN.  The square root is a parameter.  The mean norm is left out. -/
def train (sqrt : Rat → Rat) (rows : List (List Rat)) (ncols : Nat) (stdevs : Rat) :
    Option Quantizer :=
  if rows = [] then none
  else
    let maxStd := sqrt (((List.range ncols).map (colVar rows)).foldl max 0)
    let p := maxStd * stdevs
    some (Quantizer.new (2 * p) ((List.range ncols).map (fun j => colMean rows j - p)))

end Verif.Quant.Scalar
