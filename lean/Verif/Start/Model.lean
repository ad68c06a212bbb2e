import Verif.Disk.VectorFileModel
import Mathlib.Algebra.Order.Field.Rat
import Mathlib.Data.Rat.Floor

/-!
# Model of the choice of start points

`StartPointStrategy` (diskann/src/graph/start_point.rs), the samplers below it
(diskann-utils/src/sampling/{medoid, latin_hypercube, random}.rs) and the medoid of a vector file
(diskann-providers/src/utils/medoid.rs).

A float is a rational, or `none` when it is infinite or not a number; rounding is not modelled. Everything that goes
into a sum or a difference with `none` is `none`, and such a distance is smaller than nothing. Random draws are
arbitrary functions of their position: a draw from a range is `lo + raw % (hi - lo)`.
-/

namespace Verif.Start

open Verif.Disk (Row Byte VIter Sampler readMetadata)

/-- Result of a call that may panic or return an error. -/
inductive Out (α : Type) where
  | panic
  | err
  | ok (a : α)
deriving DecidableEq

/-- Sequencing of calls. -/
def Out.bind {α β : Type} : Out α → (α → Out β) → Out β
  | .panic, _ => .panic
  | .err, _ => .err
  | .ok a, f => f a

/-- A float: finite, or `none`. -/
abbrev F := Option Rat

/-- Addition of floats. -/
def fadd (a b : F) : F := a.bind fun x => b.map fun y => x + y

/-- Squared difference of floats. -/
def fsq (a b : F) : F := a.bind fun x => b.map fun y => (x - y) * (x - y)

/-- `SquaredL2::evaluate` (diskann-vector/src/distance) on slices of one length. -/
def sqL2 (a b : List F) : F := (List.zipWith fsq a b).foldl fadd (some 0)

/-! ### The medoid of a matrix (diskann-utils/src/sampling/medoid.rs) -/

/-- A matrix with `cols` columns; every row has that length. -/
structure Mat (T : Type) where
  rows : List (List T)
  cols : Nat
deriving DecidableEq

/-- The sums of the columns (medoid.rs:21–27, 57–65, 93–99, 129–135). -/
def colSums (d : Nat) (rows : List (List F)) : List F :=
  rows.foldl (fun s r => List.zipWith fadd s r) (List.replicate d (some 0))

/-- `s / data.nrows() as f64` (medoid.rs:29–32). -/
def divAll (n : Nat) (s : List F) : List F := s.map fun x => x.map fun y => y / n

/-- The loop for the closest row (medoid.rs:34–42): `min` is the smallest distance so far. -/
def closest {T : Type} (val : T → F) (m : List F) : Rat → Option (List T) → List (List T) → Option (List T)
  | _, best, [] => best
  | min, best, r :: rest =>
    match sqL2 m (r.map val) with
    | some d => if d < min then closest val m d (some r) rest else closest val m min best rest
    | none => closest val m min best rest

/-- `compute_medoid` (medoid.rs:16–48; the same for f16, u8 and i8 at 50–156). `val` is the conversion to `f32`, `big`
is `f32::MAX`, `dflt` the zero of the type. -/
def computeMedoid {T : Type} (val : T → F) (big : Rat) (dflt : T) (data : Mat T) : List T :=
  if data.cols = 0 then []
  else
    let m := divAll data.rows.length (colSums data.cols (data.rows.map (·.map val)))
    (closest val m big none data.rows).getD (List.replicate data.cols dflt)

/-! ### Latin hypercube sampling (diskann-utils/src/sampling/latin_hypercube.rs) -/

/-- `rng.random_range(lo..hi)`: panics on an empty range. -/
def drawRange (raw lo hi : Nat) : Option Nat := if lo < hi then some (lo + raw % (hi - lo)) else none

/-- One cell of the first loop (latin_hypercube.rs:38–45). -/
def latinCell {T : Type} (rows : List (List T)) (n : Nat) (raw : Nat) (s idx : Nat) : Option T :=
  let step := rows.length / n
  (drawRange raw (s * step) ((s + 1) * step)).bind fun r => (rows[r]?).bind fun row => row[idx]?

/-- All cells, row by row (latin_hypercube.rs:36–47); `none`: one of them panics. -/
def latinFill {T : Type} (rows : List (List T)) (n d : Nat) (raw : Nat → Nat → Nat) : Option (List (List T)) :=
  (List.range n).mapM fun s => (List.range d).mapM fun idx => latinCell rows n (raw s idx) s idx

/-- Swap of two rows in one column (latin_hypercube.rs:52–55). -/
def swapCell {T : Type} (m : List (List T)) (a b j : Nat) : List (List T) :=
  match (m[a]?).bind (·[j]?), (m[b]?).bind (·[j]?) with
  | some x, some y =>
    let m := m.modify a (·.set j y)
    m.modify b (·.set j x)
  | _, _ => m

/-- The shuffle (latin_hypercube.rs:49–57): the pairs are visited row by row. -/
def shuffle {T : Type} (n : Nat) (raw : Nat → Nat → Nat) : List (Nat × Nat) → List (List T) → List (List T)
  | [], m => m
  | (s, j) :: rest, m => shuffle n raw rest (swapCell m s (raw s j % n) j)

/-- The cells in the order of the loops (latin_hypercube.rs:50–51). -/
def cells (n d : Nat) : List (Nat × Nat) := (List.range n).flatMap fun s => (List.range d).map fun j => (s, j)

/-- `sample_latin_hypercube` (latin_hypercube.rs:20–60). `Matrix::new` fills with `dflt`. -/
def latin {T : Type} (dflt : T) (data : Mat T) (n : Nat) (raw1 raw2 : Nat → Nat → Nat) : Out (List (List T)) :=
  if data.cols = 0 ∨ data.rows.length = 0 then .ok (List.replicate n (List.replicate data.cols dflt))
  else match latinFill data.rows n data.cols raw1 with
    | none => .panic
    | some m => .ok (shuffle n raw2 (cells n data.cols) m)

/-! ### Random vectors (diskann-utils/src/sampling/random.rs) -/

/-- `x as u8` / `x as i8` for a float: the value without its fraction, at the nearest bound if outside, `0` for what is
not a number. An infinite value is not distinguished from that. -/
def truncTo (lo hi : Int) : F → Int
  | none => 0
  | some x => max lo (min hi (if 0 ≤ x then ⌊x⌋ else -⌊-x⌋))

/-- `generate_random_vector_with_norm_signed` before the conversion (random.rs:66–88). `xs` are the draws, `sqrt` the
square root. A division by zero gives no finite value. -/
def scaled (sqrt : Rat → Rat) (norm : Rat) (signed : Bool) (xs : List Rat) : List F :=
  let cur := sqrt ((xs.map fun x => x * x).sum)
  xs.map fun x =>
    if cur = 0 then none
    else if signed then some (x * (norm / cur)) else some |x * (norm / cur)|

/-- The types a start point can have (random.rs:38–62). -/
inductive Kind where
  | float
  | u8
  | i8
deriving DecidableEq

/-- `with_approximate_norm` (random.rs:38–62); `f16` is as `f32` without its rounding. -/
def withNorm (k : Kind) (sqrt : Rat → Rat) (norm : Rat) (xs : List Rat) : List F :=
  match k with
  | .float => scaled sqrt norm true xs
  | .u8 => (scaled sqrt norm false xs).map fun x => some (truncTo 0 255 x)
  | .i8 => (scaled sqrt norm true xs).map fun x => some (truncTo (-128) 127 x)

/-! ### Strategies (diskann/src/graph/start_point.rs) -/

/-- `StartPointStrategy` (start_point.rs:18–41); the seeds are part of the draws. -/
inductive Strategy where
  | randomVectors (norm : Rat) (n : Nat)
  | randomSamples (n : Nat)
  | medoid
  | latin (n : Nat)
  | first
deriving DecidableEq

/-- `count` (start_point.rs:72–80). -/
def Strategy.count : Strategy → Nat
  | .randomVectors _ n => n
  | .randomSamples n => n
  | .medoid => 1
  | .latin n => n
  | .first => 1

/-- What the generators return: `sample m n` is `rand::seq::index::sample`, `normal` the draws of a random vector,
`raw1` and `raw2` the draws of the latin hypercube. -/
structure Draws where
  sample : Nat → Nat → List Nat
  normal : Nat → Nat → Rat
  raw1 : Nat → Nat → Nat
  raw2 : Nat → Nat → Nat

/-- Properties of the element type: its default, its conversion to and from floats, `f32::MAX` and the square root. -/
structure Elem (T : Type) where
  dflt : T
  val : T → F
  ofF : F → T
  kind : Kind
  big : Rat
  sqrt : Rat → Rat

/-- `compute` (start_point.rs:82–141). `row_iter_mut` panics on a matrix without columns
(diskann-utils/src/views.rs:383–389). -/
def Strategy.compute {T : Type} (e : Elem T) (r : Draws) (data : Mat T) : Strategy → Out (List (List T))
  | .randomSamples n =>
    if data.rows.length < n then .err
    else if data.cols = 0 then .panic
    else match (r.sample data.rows.length n).mapM fun i => data.rows[i]? with
      | none => .panic
      | some rows => .ok rows
  | .medoid => .ok [computeMedoid e.val e.big e.dflt data]
  | .randomVectors norm n =>
    if data.cols = 0 then .panic
    else .ok ((List.range n).map fun i =>
      (withNorm e.kind e.sqrt norm ((List.range data.cols).map (r.normal i))).map e.ofF)
  | .latin n => Verif.Start.latin e.dflt data n r.raw1 r.raw2
  | .first =>
    match data.rows[0]? with
    | some row => .ok [row]
    | none => .err

/-! ### The medoid of a file (diskann-providers/src/utils/medoid.rs) -/

/-- `VectorRepr`: conversion of a stored vector to floats, and its dimension; `none` is an error. -/
structure Repr where
  asF32 : Row → Option (List F)
  fullDim : Row → Option Nat

/-- The sum in `calculate_centroid` (medoid.rs:31–43). -/
def centroidSum (R : Repr) (dim : Nat) : List F → List Row → Out (List F)
  | acc, [] => .ok acc
  | acc, v :: rest =>
    match R.asF32 v with
    | none => .err
    | some x => if x.length ≠ dim then .err else centroidSum R dim (List.zipWith fadd acc x) rest

/-- `calculate_centroid` (medoid.rs:22–53). -/
def calculateCentroid (R : Repr) (rows : List Row) (dim num : Nat) : Out (List F) :=
  (centroidSum R dim (List.replicate dim (some 0)) rows).bind fun s =>
    if num = 0 then .ok s else .ok (divAll num s)

/-- `for j in 0..f32_vector.len() { centroid[j] += f32_vector[j] }` (medoid.rs:105–107). -/
def addInto (acc x : List F) : Option (List F) :=
  if acc.length < x.length then none
  else some (List.zipWith fadd (acc.take x.length) x ++ acc.drop x.length)

/-- The callback of `calculate_centroid_with_sampling` over the sampled vectors (medoid.rs:96–110): the sum, `none`
before the first vector, and the number of vectors. -/
def sampleSum (R : Repr) : Option (List F) → Nat → List Row → Out (Option (List F) × Nat)
  | acc, n, [] => .ok (acc, n)
  | acc, n, v :: rest =>
    match (match acc with
      | some a => some a
      | none => (R.fullDim v).map fun d => List.replicate d (some 0)) with
    | none => .err
    | some a =>
      match R.asF32 v with
      | none => .err
      | some x =>
        match addInto a x with
        | none => .panic
        | some a => sampleSum R (some a) (n + 1) rest

/-- The indices drawn (medoid.rs:85–89): `p i` is the draw for index `i`. -/
def drawn (rate : Rat) (p : Nat → Rat) (npts : Nat) : List Nat := (List.range npts).filter fun i => decide (p i < rate)

/-- `calculate_centroid_with_sampling` (medoid.rs:65–124). The indices drawn are in range and the reader has checked
the size of the file, so no read fails between two callbacks. -/
def sampledCentroid (R : Repr) (sz : Nat) (file : List Byte) (rate : Rat) (p : Nat → Rat) : Out (List F) :=
  match Sampler.new sz file with
  | none => .err
  | some s =>
    let x := s.readVectors (fun _ => true) [] (drawn rate p s.npts)
    if x.2.1 = false then .err
    else (sampleSum R none 0 x.1).bind fun y =>
      match y.1 with
      | none => .err
      | some a => .ok (divAll y.2 a)

/-- `find_nearest_vector_with_id` (medoid.rs:130–153): `id` counts the vectors. The distance panics on lengths that
differ. -/
def nearestWithId (R : Repr) (c : List F) : Nat → Rat → Option (Row × Nat) → List Row → Out (Option (Row × Nat))
  | _, _, best, [] => .ok best
  | id, min, best, v :: rest =>
    match R.asF32 v with
    | none => .err
    | some x =>
      if c.length ≠ x.length then .panic
      else match sqL2 c x with
        | some d =>
          if d < min then nearestWithId R c (id + 1) d (some (v, id)) rest
          else nearestWithId R c (id + 1) min best rest
        | none => nearestWithId R c (id + 1) min best rest

/-- `ok_or_else` (medoid.rs:188, 244). -/
def orErr {α : Type} : Option α → Out α
  | none => .err
  | some x => .ok x

/-- The second pass over the file (medoid.rs:186–190, 242–246). -/
def secondPass (R : Repr) (big : Rat) (sz : Nat) (file : List Byte) (c : List F) : Out (Row × Nat) :=
  match VIter.new sz file with
  | none => .err
  | some it =>
    (nearestWithId R c 0 big none (it.all (it.num + 1))).bind orErr

/-- `find_medoid_from_file` (medoid.rs:170–196). -/
def medoidFromFile (R : Repr) (big : Rat) (sz : Nat) (file : List Byte) : Out (Row × Nat) :=
  match VIter.new sz file with
  | none => .err
  | some it =>
    match it.all (it.num + 1) with
    | [] => .err
    | x :: rest =>
      match R.fullDim x with
      | none => .err
      | some dim => (calculateCentroid R (x :: rest) dim it.num).bind fun c => secondPass R big sz file c

/-- The sampling rate (medoid.rs:226–230). -/
def samplingRate (maxSample npts : Nat) : Rat :=
  if maxSample = 0 ∨ npts ≤ maxSample then 1 else (maxSample : Rat) / npts

/-- `find_medoid_with_sampling` (medoid.rs:213–247). -/
def medoidWithSampling (R : Repr) (big : Rat) (sz : Nat) (file : List Byte) (maxSample : Nat) (p : Nat → Rat) :
    Out (Row × Nat) :=
  match readMetadata file with
  | none => .err
  | some (npts, _) =>
    (sampledCentroid R sz file (samplingRate maxSample npts) p).bind fun c => secondPass R big sz file c

end Verif.Start
