import Mathlib.Algebra.Order.Floor.Defs
import Mathlib.Algebra.Order.Field.Basic
import Verif.Transform.HadSpec

/-!
# Spherical quantization

Model of `diskann-quantization/src/spherical/{quantizer,vectors}.rs` and of the two functions of
`diskann-quantization/src/utils.rs` it trains with.

Simplifications, for the whole file:
* `f32` and `f64` values are elements of an ordered field `K`: rounding and overflow are not modelled.  A NaN or an
  infinity is `none` where one can arise.
* The square root enters as `norm`, the Euclidean norm of a vector.
* The conversion to 16 bit floats is a parameter `f16`; `none` is a result that is not finite.
* The distance-preserving transform is a function of the vector (it is the subject of C83).
* Codes are a list of naturals (the packed storage is the subject of C46, the integer kernels of C75).
* Allocation never fails.  What is left in the destination after an error is not modelled.
* A panic or an endless loop is the outer `none`.
-/

namespace Verif.Spherical

open Verif.Rotate (inner)

/-- `SupportedMetric` (`spherical/mod.rs`). -/
inductive Metric
  | squaredL2
  | innerProduct
  | cosine
deriving DecidableEq, Repr

/-- `SphericalQuantizer` (`quantizer.rs` 43–77); `transform` is the action of the transform on a vector, `outDim` its
output dimension and `preservesNorms` what it says about itself. -/
structure Quantizer (K : Type) where
  shift : List K
  outDim : Nat
  transform : List K → List K
  preservesNorms : Bool
  metric : Metric
  meanNorm : K
  preScale : K

/-- `CompressionError` (`quantizer.rs` 550–567) and `DataMetaError` (`vectors.rs` 250–259). -/
inductive CErr
  | nan
  | source (expected : Nat)
  | destination (expected : Nat)
  | correction
  | metricSpecific
  | bitSum (value : Nat)
deriving DecidableEq, Repr

section

variable {K : Type} [Field K] [LinearOrder K]

/-- A quotient of floats; `none` is a NaN or an infinity. -/
def quot (a b : K) : Option K := if b = 0 then none else some (a / b)

/-! ## Preprocessing -/

/-- The factor applied before centering (`quantizer.rs` 345–356). -/
def factor (norm : List K → K) (q : Quantizer K) (x : List K) : K :=
  match q.metric with
  | .cosine => if norm x = 0 then 1 else 1 / norm x
  | .squaredL2 => q.preScale
  | .innerProduct => q.preScale

/-- The centered vector (`quantizer.rs` 358–362). -/
def shifted (norm : List K → K) (q : Quantizer K) (x : List K) : List K :=
  List.zipWith (fun f s => factor norm q x * f - s) x q.shift

/-- `Preprocessed::metric_specific` (`quantizer.rs` 368–374, 505–510). -/
def metricSpecific (norm : List K → K) (q : Quantizer K) (x : List K) : K :=
  match q.metric with
  | .squaredL2 => norm (shifted norm q x) * norm (shifted norm q x)
  | .innerProduct => inner (shifted norm q x) q.shift
  | .cosine => inner (shifted norm q x) q.shift

/-- The vector the transform is given (`quantizer.rs` 745–748, 823–826, 1145–1148). -/
def unitOf (norm : List K → K) (q : Quantizer K) (x : List K) : List K :=
  (shifted norm q x).map (fun v => v / norm (shifted norm q x))

/-- The transformed vector (`quantizer.rs` 755–757, 833–835, 1157–1159). -/
def transformed (norm : List K → K) (q : Quantizer K) (x : List K) : List K := q.transform (unitOf norm q x)

/-- The components of a vector without NaN or infinity; `none` if there is one (then the norm of the centered vector is
not finite, `quantizer.rs` 364–367). -/
def finite {α : Type} : List (Option α) → Option (List α)
  | [] => some []
  | none :: _ => none
  | some x :: xs => (finite xs).map (fun l => x :: l)

/-- `check_dims` (`quantizer.rs` 569–582). -/
def checkDims (q : Quantizer K) (src dst : Nat) : Option CErr :=
  if src ≠ q.shift.length then some (.source q.shift.length)
  else if dst ≠ q.outDim then some (.destination q.outDim)
  else none

/-! ## Compressed data -/

/-- `DataMeta` (`vectors.rs` 218–247), with the values the 16 bit floats stand for. -/
structure Meta (K : Type) where
  correction : K
  metricSpecific : K
  bitSum : Nat
deriving DecidableEq

/-- A compressed vector, `Data` (`vectors.rs` 367). -/
structure Data (K : Type) where
  codes : List Nat
  info : Meta K
deriving DecidableEq

/-- `DataMeta::new` (`vectors.rs` 265–293); a correction that is not finite is `none`. -/
def Meta.new (f16 : K → Option K) (correction : Option K) (metricSpecific : K) (bitSum : Nat) : Except CErr (Meta K) :=
  match correction.bind f16 with
  | none => .error .correction
  | some c =>
    match f16 metricSpecific with
    | none => .error .metricSpecific
    | some m => if bitSum < 65536 then .ok ⟨c, m, bitSum⟩ else .error (.bitSum bitSum)

/-- `DataMeta::default` (derived, `vectors.rs` 219). -/
def Meta.zero : Meta K := ⟨0, 0, 0⟩

/-- `offset_term` (`vectors.rs` 312–314). -/
def offsetTerm (b : Nat) : K := (2 ^ b - 1) / 2

/-- The end of a compression: metadata for codes that are already there. -/
def withMeta (codes : List Nat) : Except CErr (Meta K) → Except CErr (Data K)
  | .ok m => .ok ⟨codes, m⟩
  | .error e => .error e

/-- The bit of a component (`quantizer.rs` 609). -/
def signBit (r : K) : Nat := if 0 < r then 1 else 0

/-- `finish_compressing` for one bit (`quantizer.rs` 596–647); `tnorm` is the norm of the transformed vector, `snorm`
that of the centered one, `ms` the metric specific term. -/
def finishOne (f16 : K → Option K) (snorm ms : K) (t : List K) (tnorm : K) : Except CErr (Data K) :=
  withMeta (t.map signBit)
    (Meta.new f16 (quot (2 * tnorm * snorm) (t.map (fun r => |r|)).sum) ms (t.map signBit).sum)

variable [FloorRing K]

/-- `f32::round`: to the nearest integer, halves away from zero. -/
def roundAway (x : K) : Int := if 0 ≤ x then ⌊x + 1 / 2⌋ else -⌊-x + 1 / 2⌋

/-- `f32::clamp`. -/
def clampTo (lo hi x : K) : K := if x < lo then lo else if hi < x then hi else x

/-- The code of a component (`quantizer.rs` 896–900): the rounded value is an integer between `0` and `2 ^ b - 1`, which
the conversion to `u8` keeps. -/
def codeAt (b : Nat) (s t : K) : Nat := (roundAway (clampTo 0 (2 ^ b - 1) (t * s + offsetTerm b))).toNat

/-- The self inner product (`quantizer.rs` 893–898). -/
def selfProduct (b : Nat) (s : K) (t : List K) : K :=
  (t.map (fun r => ((codeAt b s r : Nat) - offsetTerm b) * r)).sum

/-! ## The scale of maximal cosine similarity -/

/-- The value of a `Pair` (`quantizer.rs` 933–937): a number, `f32::MAX`, or infinity (the quotient of a component that is
zero).  Simplification: numbers are below `f32::MAX`. -/
inductive Crit (K : Type)
  | num (x : K)
  | top
  | infinite
deriving DecidableEq

/-- Order of critical values (`quantizer.rs` 951–958; the heap is reversed, so that its root is a smallest pair). -/
def Crit.le : Crit K → Crit K → Bool
  | .num x, .num y => decide (x ≤ y)
  | .num _, _ => true
  | .top, .num _ => false
  | .top, _ => true
  | .infinite, .infinite => true
  | .infinite, _ => false

/-- The critical value of a component of absolute value `a` at level `r` (`quantizer.rs` 1017, 1084). -/
def critOf (eps : K) (a : K) (r : Nat) : Crit K := if a = 0 then .infinite else .num (((r : K) + eps) / a)

/-- What the loop keeps (`quantizer.rs` 1000–1034).  The heap is the list of the critical values by position.  Instead of
the similarity `ip / sqrt(norm)` the model keeps its square (both are non-negative); `none` is minus infinity.  The scale
is `none` when it is infinite. -/
structure Walk (K : Type) where
  rounded : List Nat
  crit : List (Crit K)
  ip : K
  sq : K
  best : Option K
  scale : Option K

/-- The start of the loop (`quantizer.rs` 1000–1033). -/
def Walk.start (eps : K) (v : List K) : Walk K :=
  { rounded := v.map (fun _ => 1)
    crit := v.map (fun x => critOf eps |x| 1)
    ip := 1 / 2 * (v.map (fun x => |x|)).sum
    sq := 1 / 4 * (v.length : K)
    best := none
    scale := some 0 }

/-- The number a critical value stands for; `none` is infinity. -/
def Crit.value : Crit K → Option K
  | .num x => some x
  | .top => none
  | .infinite => none

/-- `similarity > max_similarity` (`quantizer.rs` 1076). -/
def better (best : Option K) (sim : K) : Bool :=
  match best with
  | none => true
  | some b => decide (b < sim)

/-- The update of the root (`quantizer.rs` 1045–1092): component `i` with absolute value `a`, level `r` and critical value
`c` moves up one level. -/
def Walk.advance (eps : K) (stop : Nat) (w : Walk K) (i : Nat) (a : K) (r : Nat) (c : Crit K) : Walk K :=
  let ip := w.ip + a
  let sq := w.sq + ((2 * r : Nat) : K)
  let sim := ip * ip / sq
  { rounded := w.rounded.set i (r + 1)
    crit := w.crit.set i (if r + 1 < stop then critOf eps a (r + 1) else .top)
    ip := ip
    sq := sq
    best := if better w.best sim then some sim else w.best
    scale := if better w.best sim then c.value else w.scale }

/-- The loop (`quantizer.rs` 1036–1097); `pick n` is the position of the root of the heap in round `n`. -/
def Walk.loop (eps : K) (stop : Nat) (v : List K) (pick : Nat → List (Crit K) → Nat) : Nat → Walk K → Option (Walk K)
  | 0, _ => none
  | fuel + 1, w =>
    match w.crit[pick fuel w.crit]?, v[pick fuel w.crit]?, w.rounded[pick fuel w.crit]? with
    | some .top, _, _ => some w
    | some c, some x, some r => Walk.loop eps stop v pick fuel (w.advance eps stop (pick fuel w.crit) |x| r c)
    | _, _, _ => none

/-- `maximize_cosine_similarity` (`quantizer.rs` 991–1100); `SliceHeap::new` fails on an empty slice. -/
def optimalScale (eps : K) (b : Nat) (pick : Nat → List (Crit K) → Nat) (v : List K) : Option (Option K) :=
  if v = [] then none
  else (Walk.loop eps (2 ^ (b - 1)) v pick (v.length * 2 ^ (b - 1) + 1) (Walk.start eps v)).map (·.scale)

/-- The rest of `compress_via_maximum_cosine` (`quantizer.rs` 888–917) at a scale.  An infinite scale makes every product
with a component zero a NaN, and with it the correction. -/
def finishAt (f16 : K → Option K) (b : Nat) (snorm ms : K) (t : List K) (tnorm : K) :
    Option K → Except CErr (Data K)
  | none => .error .correction
  | some s =>
    withMeta (t.map (codeAt b s))
      (Meta.new f16 (quot (tnorm * snorm) (selfProduct b s t)) ms (t.map (codeAt b s)).sum)

/-- `eps` (`quantizer.rs` 1013). -/
def epsilon : K := 1 / 10000

/-- `compress_via_maximum_cosine` (`quantizer.rs` 871–918). -/
def finishMany (f16 : K → Option K) (b : Nat) (pick : Nat → List (Crit K) → Nat) (snorm ms : K) (t : List K)
    (tnorm : K) : Option (Except CErr (Data K)) :=
  (optimalScale epsilon b pick t).map (finishAt f16 b snorm ms t tnorm)

/-- `FinishCompressing` (`quantizer.rs` 596–701): one bit, or two, four and eight bits. -/
def finish (f16 : K → Option K) (b : Nat) (pick : Nat → List (Crit K) → Nat) (snorm ms : K) (t : List K) (tnorm : K) :
    Option (Except CErr (Data K)) :=
  if b = 1 then some (finishOne f16 snorm ms t tnorm) else finishMany f16 b pick snorm ms t tnorm

/-- The norm of the transformed vector (`quantizer.rs` 853–857). -/
def transformedNorm (norm : List K → K) (q : Quantizer K) (x : List K) : K :=
  if q.preservesNorms then 1 else norm (transformed norm q x)

/-- Compression of a vector without NaN (`quantizer.rs` 815–860); `old` are the codes in the destination, which stay as
they are when the vector is the center. -/
def compressFinite (norm : List K → K) (f16 : K → Option K) (pick : Nat → List (Crit K) → Nat) (q : Quantizer K) (b : Nat)
    (x : List K) (old : List Nat) : Option (Except CErr (Data K)) :=
  if norm (shifted norm q x) = 0 then some (.ok ⟨old, Meta.zero⟩)
  else finish f16 b pick (norm (shifted norm q x)) (metricSpecific norm q x) (transformed norm q x)
    (transformedNorm norm q x)

/-- `compress_into_with` for data (`quantizer.rs` 805–861). -/
def compress (norm : List K → K) (f16 : K → Option K) (pick : Nat → List (Crit K) → Nat) (q : Quantizer K) (b : Nat)
    (x : List (Option K)) (old : List Nat) : Option (Except CErr (Data K)) :=
  match checkDims q x.length old.length with
  | some e => some (.error e)
  | none =>
    match finite x with
    | none => some (.error .nan)
    | some x => compressFinite norm f16 pick q b x old

/-! ## Queries -/

/-- `FullQuery` with `FullQueryMeta` (`vectors.rs` 418–436). -/
structure Full (K : Type) where
  data : List K
  sum : K
  shiftedNorm : K
  metricSpecific : K
deriving DecidableEq

/-- Compression of a full-precision query without NaN (`quantizer.rs` 735–780). -/
def compressFullFinite (norm : List K → K) (q : Quantizer K) (x : List K) : Full K :=
  if norm (shifted norm q x) = 0 then ⟨List.replicate q.outDim 0, 0, 0, 0⟩
  else ⟨transformed norm q x, (transformed norm q x).sum, norm (shifted norm q x), metricSpecific norm q x⟩

/-- `compress_into_with` for full-precision queries (`quantizer.rs` 725–781); `len` is the length of the destination. -/
def compressFull (norm : List K → K) (q : Quantizer K) (x : List (Option K)) (len : Nat) : Except CErr (Full K) :=
  match checkDims q x.length len with
  | some e => .error e
  | none =>
    match finite x with
    | none => .error .nan
    | some x => .ok (compressFullFinite norm q x)

/-- `Query` with `QueryMeta` (`vectors.rs` 383–402).  A NaN or an infinity is `none`. -/
structure Query (K : Type) where
  codes : List Nat
  correction : K
  bitSum : Option K
  offset : Option K
  metricSpecific : K
deriving DecidableEq

/-- Least and greatest component (`quantizer.rs` 1177–1182); `top` is `f32::MAX`. -/
def rangeOf (top : K) (t : List K) : K × K := t.foldl (fun m i => (min i m.1, max i m.2)) (top, -top)

/-- The code of a component of a query (`quantizer.rs` 1191–1200) at a scale that is not zero. -/
def queryCode (b : Nat) (lo scale v : K) : Nat := (clampTo 0 (2 ^ b - 1) (roundAway ((v - lo) / scale) : K)) |> fun c => ⌊c⌋.toNat

/-- The end of the compression of a query (`quantizer.rs` 1184–1209).  With the scale zero every quotient is a NaN, whose
conversion to an integer is zero. -/
def finishQuery (b : Nat) (snorm ms : K) (t : List K) (lo hi : K) : Query K :=
  let scale := (hi - lo) / (2 ^ b - 1)
  if scale = 0 then ⟨t.map (fun _ => 0), snorm * scale, none, none, ms⟩
  else
    ⟨t.map (queryCode b lo scale), snorm * scale, some (((t.map (queryCode b lo scale)).sum : Nat) : K),
      some (lo / scale), ms⟩

/-- Compression of a query without NaN (`quantizer.rs` 1138–1210). -/
def compressQueryFinite (norm : List K → K) (top : K) (q : Quantizer K) (b : Nat) (x : List K) (old : List Nat) :
    Query K :=
  if norm (shifted norm q x) = 0 then ⟨old, 0, some 0, some 0, 0⟩
  else finishQuery b (norm (shifted norm q x)) (metricSpecific norm q x) (transformed norm q x)
    (rangeOf top (transformed norm q x)).1 (rangeOf top (transformed norm q x)).2

/-- `compress_into_with` for queries (`quantizer.rs` 1128–1211). -/
def compressQuery (norm : List K → K) (top : K) (q : Quantizer K) (b : Nat) (x : List (Option K)) (old : List Nat) :
    Except CErr (Query K) :=
  match checkDims q x.length old.length with
  | some e => .error e
  | none =>
    match finite x with
    | none => .error .nan
    | some x => .ok (compressQueryFinite norm top q b x old)

end

/-! ## Distances -/

section

variable {K : Type} [Field K]

/-- `InnerProduct` of two vectors of codes. -/
def codesDot (x y : List Nat) : Nat := (List.zipWith (· * ·) x y).sum

/-- `kernel` (`vectors.rs` 494–528), for codes of equal length. -/
def kernel (b : Nat) (dim : K) (x y : Data K) : K :=
  x.info.correction * y.info.correction *
    (((codesDot x.codes y.codes : Nat) : K) - offsetTerm b * ((x.info.bitSum : K) + (y.info.bitSum : K)) +
      offsetTerm b * offsetTerm b * dim)

/-- `CompensatedSquaredL2` on data (`vectors.rs` 584–594); `none` is the error for unequal lengths. -/
def l2Data (b : Nat) (dim : K) (x y : Data K) : Option K :=
  if x.codes.length = y.codes.length then
    some (x.info.metricSpecific + y.info.metricSpecific - 2 * kernel b dim x y)
  else none

/-- `CompensatedIP` on data (`vectors.rs` 744–758). -/
def ipData (b : Nat) (ssn dim : K) (x y : Data K) : Option K :=
  if x.codes.length = y.codes.length then
    some (x.info.metricSpecific + y.info.metricSpecific + kernel b dim x y + ssn)
  else none

/-- The corrected inner product of a query and data (`vectors.rs` 619–631, 784–795); a NaN is `none`. -/
def queryKernel (b : Nat) (dim : K) (x : Query K) (y : Data K) : Option K :=
  match x.bitSum, x.offset with
  | some bs, some off =>
    some (y.info.correction * x.correction *
      (((codesDot x.codes y.codes : Nat) : K) - offsetTerm b * bs + off * (y.info.bitSum : K) -
        offsetTerm b * off * dim))
  | _, _ => none

/-- `CompensatedSquaredL2` on a query and data (`vectors.rs` 613–636): the outer `none` is the error for unequal lengths,
the inner one a NaN. -/
def l2Query (b : Nat) (dim : K) (x : Query K) (y : Data K) : Option (Option K) :=
  if x.codes.length = y.codes.length then
    some ((queryKernel b dim x y).map (fun ip => y.info.metricSpecific + x.metricSpecific - 2 * ip))
  else none

/-- `CompensatedIP` on a query and data (`vectors.rs` 777–801). -/
def ipQuery (b : Nat) (ssn dim : K) (x : Query K) (y : Data K) : Option (Option K) :=
  if x.codes.length = y.codes.length then
    some ((queryKernel b dim x y).map (fun ip => ip + y.info.metricSpecific + x.metricSpecific + ssn))
  else none

/-- `InnerProduct` of a vector of floats and one of codes. -/
def mixedDot (x : List K) (y : List Nat) : K := (List.zipWith (fun a c => a * (c : K)) x y).sum

/-- `CompensatedSquaredL2` on a full-precision query and data (`vectors.rs` 657–678). -/
def l2Full (b : Nat) (x : Full K) (y : Data K) : Option K :=
  if x.data.length = y.codes.length then
    some (x.metricSpecific + y.info.metricSpecific -
      2 * x.shiftedNorm * y.info.correction * (mixedDot x.data y.codes - x.sum * offsetTerm b))
  else none

/-- `CompensatedIP` on a full-precision query and data (`vectors.rs` 822–841). -/
def ipFull (b : Nat) (ssn : K) (x : Full K) (y : Data K) : Option K :=
  if x.data.length = y.codes.length then
    some (x.shiftedNorm * y.info.correction * (mixedDot x.data y.codes - x.sum * offsetTerm b) + x.metricSpecific +
      y.info.metricSpecific + ssn)
  else none

/-- The distance of two compressed vectors with the functor of the quantizer's metric (`quantizer.rs` 517–542): the inner
product is negated (`vectors.rs` 714–716), the cosine is one minus the inner product (885–897). -/
def distData (q : Quantizer K) (b : Nat) (x y : Data K) : Option K :=
  match q.metric with
  | .squaredL2 => l2Data b (q.outDim : K) x y
  | .innerProduct => (ipData b (inner q.shift q.shift) (q.outDim : K) x y).map (fun r => -r)
  | .cosine => (ipData b (inner q.shift q.shift) (q.outDim : K) x y).map (fun r => 1 - r)

/-- The same for a query. -/
def distQuery (q : Quantizer K) (b : Nat) (x : Query K) (y : Data K) : Option (Option K) :=
  match q.metric with
  | .squaredL2 => l2Query b (q.outDim : K) x y
  | .innerProduct => (ipQuery b (inner q.shift q.shift) (q.outDim : K) x y).map (Option.map fun r => -r)
  | .cosine => (ipQuery b (inner q.shift q.shift) (q.outDim : K) x y).map (Option.map fun r => 1 - r)

/-- The same for a full-precision query. -/
def distFull (q : Quantizer K) (b : Nat) (x : Full K) (y : Data K) : Option K :=
  match q.metric with
  | .squaredL2 => l2Full b x y
  | .innerProduct => (ipFull b (inner q.shift q.shift) x y).map (fun r => -r)
  | .cosine => (ipFull b (inner q.shift q.shift) x y).map (fun r => 1 - r)

end

/-! ## Training -/

section

variable {K : Type} [Field K] [LinearOrder K]

/-- `TrainError` (`quantizer.rs` 91–106). -/
inductive TrainErr
  | dimZero
  | empty
  | normNotPositive
  | normNotFinite
  | reciprocalNotFinite
  | preScaleNotPositive
deriving DecidableEq, Repr

/-- `SphericalQuantizer::generate` (`quantizer.rs` 165–209) with a transform of the given output dimension; `Positive::new`
accepts exactly the numbers above zero. -/
def generate (centroid : List K) (meanNorm : K) (outDim : Nat) (transform : List K → List K) (preserves : Bool)
    (metric : Metric) (preScale : Option K) : Except TrainErr (Quantizer K) :=
  let p := preScale.getD 1
  if ¬ 0 < p then .error .preScaleNotPositive
  else if centroid.length = 0 then .error .dimZero
  else if ¬ 0 < meanNorm then .error .normNotPositive
  else .ok ⟨centroid.map (fun v => v * p), outDim, transform, preserves, metric, meanNorm, p⟩

/-- The column sums (`utils.rs` 116–122, 169–173). -/
def columnSums (ncols : Nat) (rows : List (List K)) : List K :=
  rows.foldl (fun m r => List.zipWith (· + ·) m r) (List.replicate ncols 0)

/-- `compute_means_and_average_norm` (`utils.rs` 109–141); `none` for an empty matrix, where every result is a NaN. -/
def meansAndNorm (norm : List K → K) (ncols : Nat) (rows : List (List K)) : Option (List K × K) :=
  if rows.length = 0 then none
  else
    some ((columnSums ncols rows).map (fun m => m / (rows.length : K)),
      (rows.foldl (fun acc r => acc + norm r) 0) / (rows.length : K))

/-- `compute_normalized_means` (`utils.rs` 144–178). -/
def normalizedMeans (norm : List K → K) (ncols : Nat) (rows : List (List K)) : Option (List K) :=
  if rows.length = 0 then none
  else
    some ((columnSums ncols (rows.map (fun r => r.map (fun x => x * (if norm r = 0 then 1 else 1 / norm r))))).map
      (fun m => m / (rows.length : K)))

/-- `PreScale` (`quantizer.rs` 388–396). -/
inductive PreScale (K : Type)
  | none
  | some (v : K)
  | reciprocal

/-- Centroid and mean norm (`quantizer.rs` 263–282).  An empty matrix makes the mean norm a NaN, which is not below zero but
is not finite. -/
def centroidAndNorm (norm : List K → K) (ncols : Nat) (rows : List (List K)) : Metric → Except TrainErr (List K × K)
  | .cosine =>
    match normalizedMeans norm ncols rows with
    | none => .error .empty
    | some c => .ok (c, 1)
  | _ =>
    match meansAndNorm norm ncols rows with
    | none => .error .normNotFinite
    | some (c, n) => if n ≤ 0 then .error .normNotPositive else .ok (c, n)

/-- The pre-scale (`quantizer.rs` 285–306). -/
def preScaleOf (meanNorm : K) : PreScale K → K
  | .none => 1
  | .some v => v
  | .reciprocal => 1 / meanNorm

/-- `SphericalQuantizer::train` (`quantizer.rs` 245–321). -/
def train (norm : List K → K) (ncols : Nat) (rows : List (List K)) (outDim : Nat) (transform : List K → List K)
    (preserves : Bool) (metric : Metric) (pre : PreScale K) : Except TrainErr (Quantizer K) :=
  if ncols = 0 then .error .dimZero
  else
    match centroidAndNorm norm ncols rows metric with
    | .error e => .error e
    | .ok (c, n) => generate c n outDim transform preserves metric (some (preScaleOf n pre))

end

end Verif.Spherical
