import Mathlib.Algebra.Field.Defs
import Mathlib.Order.Defs.LinearOrder

/-! # k-means++, Lloyd's algorithm and the training of product quantization pivots

`diskann-quantization/src/algorithms/kmeans/{common,lloyds,plusplus}.rs` and
`diskann-quantization/src/product/train.rs`.

`f32` and `f64` are a linearly ordered field `K`: no rounding and no NaN. Infinity is `none` where the code uses it. An outer
`none` is a panic or a read outside an allocation. Matrices are lists of rows. The block-transposed copy of the data is
read as C78 proves it: lane `l` of block `b` holds row `16 b + l`, or zeros past the last row. The two registers of eight
lanes are one list of sixteen. Casts of center numbers to `u32` are exact (fewer than 2^32 centers). -/

namespace Verif.Kmeans

variable {K : Type}

/-! ## Squared norm -/

/-- Load eight values at `off`, square them and add them to `s`. `common.rs` 25-27, and 29-39 and 48-50 alike. -/
def sq8 [Mul K] [Add K] [Zero K] (x : List K) (off : Nat) (s : Nat → K) : Option (Nat → K) :=
  if off + 8 ≤ x.length then some fun k => x.getD (off + k) 0 * x.getD (off + k) 0 + s k else none

/-- The loop over 32 values. `common.rs` 24-42. -/
def norm32 [Mul K] [Add K] [Zero K] (x : List K) (i : Nat) (s0 s1 s2 s3 : Nat → K) :
    Option (Nat × (Nat → K) × (Nat → K) × (Nat → K) × (Nat → K)) :=
  if i + 32 ≤ x.length then do
    let s0 ← sq8 x i s0
    let s1 ← sq8 x (i + 8) s1
    let s2 ← sq8 x (i + 16) s2
    let s3 ← sq8 x (i + 24) s3
    norm32 x (i + 32) s0 s1 s2 s3
  else some (i, s0, s1, s2, s3)
termination_by x.length - i

/-- The loop over eight values. `common.rs` 47-52. -/
def norm8 [Mul K] [Add K] [Zero K] (x : List K) (i : Nat) (s : Nat → K) : Option (Nat × (Nat → K)) :=
  if i + 8 ≤ x.length then do
    let s ← sq8 x i s
    norm8 x (i + 8) s
  else some (i, s)
termination_by x.length - i

/-- The remaining values: `load_simd_first` gives zeros past `remainder`. `common.rs` 54-62. -/
def normRest [Mul K] [Add K] [Zero K] (x : List K) (i : Nat) (s : Nat → K) : Option (Nat → K) :=
  let remainder := x.length - i
  if remainder ≠ 0 then
    if i + remainder ≤ x.length then
      some fun k => if k < remainder then x.getD (i + k) 0 * x.getD (i + k) 0 + s k else 0 * 0 + s k
    else none
  else some s

/-- `square_norm`. `common.rs` 9-65. The first loop runs at least once if it is entered; not entering it leaves zeros. -/
def squareNorm [Mul K] [Add K] [Zero K] (x : List K) : Option K := do
  let z : Nat → K := fun _ => 0
  let r ← norm32 x 0 z z z z
  let s : Nat → K := fun k => (r.2.1 k + r.2.2.1 k) + (r.2.2.2.1 k + r.2.2.2.2 k)
  let r ← norm8 x r.1 s
  let s ← normRest x r.1 r.2
  some ((List.range 8).map s).sum

/-! ## Blocks of sixteen rows -/

/-- What the block-transposed matrix holds for dimension `d` in lane `l` of block `b`. -/
def laneAt [Zero K] (data : List (List K)) (b d l : Nat) : K := (data.getD (16 * b + l) []).getD d 0

/-- Whether lane `l` of sixteen is among the first `lo` of the first or the first `hi` of the second register.
`lloyds.rs` 238-239, `plusplus.rs` 177-178. -/
def inLanes (first l : Nat) : Bool :=
  let lo := min first 8
  let hi := first - lo
  if l < 8 then l < lo else l - 8 < hi

/-- Load lane `l` of the first `first` values at `off`; the other lanes are `zero`. -/
def loadLane {α : Type} (zero : α) (buf : List α) (off first l : Nat) : Option α :=
  if inLanes first l then buf[off + l]? else some zero

/-- Write the first `first` of sixteen lanes at `off`. -/
def storeLanes {α : Type} (buf : List α) (off first : Nat) (lanes : List α) : Option (List α) :=
  let kept := (lanes.zipIdx.filter fun p => inLanes first p.2).map (·.1)
  if off + kept.length ≤ buf.length then some (buf.take off ++ kept ++ buf.drop (off + kept.length)) else none

/-- The inner product of `row` with lane `l` of block `b`, accumulated over the dimensions. `lloyds.rs` 77-110, 119-144;
`plusplus.rs` 95-112. -/
def dotLane [Mul K] [Add K] [Zero K] (data : List (List K)) (ncols b l : Nat) (row : List K) : Option K :=
  (List.range ncols).foldlM (fun s d => row[d]?.map fun c => c * laneAt data b d l + s) 0

/-- The sum of two values that may be infinite. -/
def addInf [Add K] : Option K → Option K → Option K
  | some a, some b => some (a + b)
  | _, _ => none

/-- `a < b` where `b` may be infinite. -/
def ltInf [LT K] [DecidableRel (α := K) (· < ·)] (a : K) : Option K → Bool
  | some b => a < b
  | none => true

/-! ## Lloyd's algorithm -/

/-- `update` on one lane. `lloyds.rs` 330-339. -/
def update [LT K] [DecidableRel (α := K) (· < ·)] (t : Option K × Nat) (d : K) (i : Nat) : Option K × Nat :=
  if ltInf d t.1 then (some d, i) else t

/-- The centers in the order in which they are compared: pairs, then the last one if their number is odd.
`lloyds.rs` 150-154, 176-218 and 265-306. -/
def rowOrder (ncenters : Nat) : List Nat :=
  let lastPair := if ncenters % 2 = 0 then ncenters else ncenters - 1
  ((List.range (lastPair / 2)).flatMap fun j => [2 * j, 2 * j + 1]) ++ if ncenters % 2 = 0 then [] else [lastPair]

/-- One comparison for one lane: the distance is `n - s - s + d`. `lloyds.rs` 179-199, 206-217. -/
def compare [Field K] [LinearOrder K] (data : List (List K)) (ncols : Nat) (centers : List (List K)) (cnorms : List K)
    (b l : Nat) (d : K) (t : Option K × Nat) (r : Nat) : Option (Option K × Nat) := do
  let c ← centers[r]?
  let n ← cnorms[r]?
  let s ← dotLane data ncols b l c
  some (update t (n - s - s + d) r)

/-- The closest center of lane `l`. `lloyds.rs` 157-218 (`first = 16`), 241-306. -/
def closestLane [Field K] [LinearOrder K] (data : List (List K)) (ncols : Nat) (norms : List K) (centers : List (List K))
    (cnorms : List K) (b first l : Nat) : Option (Option K × Nat) := do
  let d ← loadLane 0 norms (16 * b) first l
  (rowOrder centers.length).foldlM (compare data ncols centers cnorms b l d) (none, 2 ^ 32 - 1)

/-- One block: the closest centers are stored and the distances of the lanes added to the residual of eight lanes.
`lloyds.rs` 156-230 and 236-326. -/
def closestBlock [Field K] [LinearOrder K] (data : List (List K)) (ncols : Nat) (norms : List K) (centers : List (List K))
    (cnorms : List K) (b first : Nat) (st : List Nat × (Nat → Option K)) : Option (List Nat × (Nat → Option K)) := do
  let t ← (List.range 16).mapM (closestLane data ncols norms centers cnorms b first)
  let nearest ← storeLanes st.1 (16 * b) first (t.map (·.2))
  let pick (r : Option K) (l : Nat) : Option K := if inLanes first l then addInf r (t.getD l (none, 0)).1 else r
  some (nearest, fun l => pick (pick (st.2 l) l) (l + 8))

/-- The sum of the eight lanes. -/
def sumLanes [Add K] [Zero K] (r : Nat → Option K) : Option K := (List.range 8).foldl (fun s l => addInf s (r l)) (some 0)

/-- The loop over the full blocks, then the block of the remaining rows. `lloyds.rs` 156-326. -/
def closestAll [Field K] [LinearOrder K] (data : List (List K)) (ncols : Nat) (norms : List K) (centers : List (List K))
    (cnorms : List K) (nearest : List Nat) : Option (List Nat × (Nat → Option K)) := do
  let st ← (List.range (data.length / 16)).foldlM (fun st b => closestBlock data ncols norms centers cnorms b 16 st)
    (nearest, fun _ => some 0)
  if data.length % 16 ≠ 0 then closestBlock data ncols norms centers cnorms (data.length / 16) (data.length % 16) st
  else some st

/-- `distances_in_place`: the assertions, the closest centers and the residual, which is infinite if there is no center.
`lloyds.rs` 28-328. `ncols` and `centerCols` are the widths of the matrices. -/
def distancesInPlace [Field K] [LinearOrder K] (data : List (List K)) (ncols : Nat) (norms : List K)
    (centers : List (List K)) (centerCols : Nat) (cnorms : List K) (nearest : List Nat) : Option (List Nat × Option K) :=
  if data.length = norms.length ∧ centerCols = ncols ∧ centers.length = cnorms.length ∧ nearest.length = data.length then do
    let st ← closestAll data ncols norms centers cnorms nearest
    some (st.1, sumLanes st.2)
  else none

/-- The sums and counts of the clusters; a center number out of range panics. `lloyds.rs` 348-354. -/
def addRow [Add K] (acc : List (List K) × List Nat) (rc : List K × Nat) : Option (List (List K) × List Nat) :=
  if rc.2 < acc.2.length then
    some (acc.1.modify rc.2 (fun sum => List.zipWith (· + ·) sum rc.1), acc.2.modify rc.2 (· + 1))
  else none

/-- `update_centroids`. `lloyds.rs` 345-366. -/
def updateCentroids [Field K] (centers : List (List K)) (ncols : Nat) (data : List (List K)) (map : List Nat) :
    Option (List (List K)) := do
  let acc ← (data.zip map).foldlM addRow
    (List.replicate centers.length (List.replicate ncols 0), List.replicate centers.length 0)
  some (List.zipWith (fun count sum => sum.map (· / ((max count 1 : Nat) : K))) acc.2 acc.1)

/-- The state of the loop in `lloyds_inner`. `lloyds.rs` 404-406. -/
structure Lloyd (K : Type) where
  centers : List (List K)
  cnorms : List K
  assignments : List Nat
  residual : Option K

/-- One iteration; the norms are not recomputed after the last one. `lloyds.rs` 408-424. -/
def lloydStep [Field K] [LinearOrder K] (data : List (List K)) (ncols : Nat) (norms : List K) (maxReps : Nat) (s : Lloyd K)
    (i : Nat) : Option (Lloyd K) := do
  let r ← distancesInPlace data ncols norms s.centers ncols s.cnorms s.assignments
  let centers ← updateCentroids s.centers ncols data r.1
  let cnorms ← if i ≠ maxReps - 1 then centers.mapM squareNorm else some s.cnorms
  some ⟨centers, cnorms, r.1, r.2⟩

/-- `lloyds_inner` on data, its transpose and its norms. `lloyds.rs` 372-426. -/
def lloydsInner [Field K] [LinearOrder K] (data : List (List K)) (ncols : Nat) (norms : List K) (centers : List (List K))
    (maxReps : Nat) : Option (Lloyd K) :=
  if data.length = norms.length then do
    let cnorms ← centers.mapM squareNorm
    (List.range maxReps).foldlM (lloydStep data ncols norms maxReps)
      ⟨centers, cnorms, List.replicate data.length 0, some 0⟩
  else none

/-- `lloyds`: the new centers, the assignments and the residual. `lloyds.rs` 441-461. -/
def lloyds [Field K] [LinearOrder K] (data : List (List K)) (ncols : Nat) (centers : List (List K)) (centerCols : Nat)
    (maxReps : Nat) : Option (List (List K) × List Nat × Option K) :=
  if ncols = centerCols then do
    let norms ← data.mapM squareNorm
    let s ← lloydsInner data ncols norms centers maxReps
    some (s.centers, s.assignments, s.residual)
  else none

/-! ## k-means++ -/

/-- One lane of `accum_full`, `finish` (`first = 16`) and `finish_last`: the smaller of the stored distance and the distance to
the new point. `plusplus.rs` 95-116, 129-147, 177-208. -/
def minLane [Field K] [LinearOrder K] (data : List (List K)) (ncols : Nat) (norms : List K) (mins : List (Option K))
    (this : List K) (thisNorm : K) (b first l : Nat) : Option (Option K) := do
  let s ← dotLane data ncols b l this
  let n ← loadLane 0 norms (16 * b) first l
  let cur ← loadLane (some 0) mins (16 * b) first l
  let d := n + thisNorm + s * -2
  some (if ltInf d cur then some d else cur)

/-- One block: the new distances are stored and the sum of all lanes is added. `plusplus.rs` 149-160, 210-226. -/
def minBlock [Field K] [LinearOrder K] (data : List (List K)) (ncols : Nat) (norms : List K) (this : List K) (thisNorm : K)
    (b first : Nat) (st : List (Option K) × Option K) : Option (List (Option K) × Option K) := do
  let t ← (List.range 16).mapM (minLane data ncols norms st.1 this thisNorm b first)
  let mins ← storeLanes st.1 (16 * b) first t
  some (mins, addInf st.2 (t.foldl addInf (some 0)))

/-- `update_distances`. `plusplus.rs` 238-318. -/
def updateDistances [Field K] [LinearOrder K] (mins : List (Option K)) (data : List (List K)) (ncols : Nat) (norms : List K)
    (this : List K) (thisNorm : K) : Option (List (Option K) × Option K) :=
  if this.length = ncols ∧ mins.length = data.length ∧ norms.length = data.length then do
    let st ← (List.range (data.length / 16)).foldlM (fun st b => minBlock data ncols norms this thisNorm b 16 st)
      (mins, some 0)
    if data.length % 16 ≠ 0 then minBlock data ncols norms this thisNorm (data.length / 16) (data.length % 16) st
    else some st
  else none

/-- `FailureReason`. `plusplus.rs` 321-329. -/
inductive Reason
  | datasetTooSmall
  | insufficientDiversity
  | sawInfinity
deriving DecidableEq, Repr

/-- `KMeansPlusPlusError`. `plusplus.rs` 358-365. -/
structure PpError where
  selected : Nat
  expected : Nat
  reason : Reason
deriving DecidableEq, Repr

/-- `is_numerically_recoverable`. `plusplus.rs` 332-342, 376-378. -/
def PpError.recoverable (e : PpError) : Bool := e.reason ≠ .sawInfinity && decide (e.selected > 0)

/-- The random draws: the first row, and the threshold between 0 and the sum for every further center. -/
structure Draws (K : Type) where
  first : Nat
  threshold : Nat → K → K

/-- `*d > 0.0` for a value that may be infinite. -/
def posInf [LT K] [Zero K] [DecidableRel (α := K) (· < ·)] : Option K → Bool
  | some d => (0 : K) < d
  | none => true

/-- `rolling_sum >= threshold`. -/
def reached [LE K] [DecidableRel (α := K) (· ≤ ·)] (t : K) : Option K → Bool
  | some r => t ≤ r
  | none => true

/-- The loop that picks a row. `plusplus.rs` 448-460. -/
def pickRow [Field K] [LinearOrder K] (picked : List Nat) (t : K) : List (Option K) → Nat → Option K → Option Nat
  | [], _, _ => none
  | d :: ds, i, rolling =>
    let rolling := addInf rolling d
    if reached t rolling && posInf d && !picked.contains i then some i else pickRow picked t ds (i + 1) rolling

/-- The loop state. `plusplus.rs` 420-431. -/
structure Pp (K : Type) where
  points : List (List K)
  mins : List (Option K)
  picked : List Nat
  norm : K
  selected : Nat

/-- Copy row `i` of the data to row `current`. `plusplus.rs` 424-431, 454-457. -/
def Pp.take (data : List (List K)) (norms : List K) (current : Nat) (s : Pp K) (i : Nat) : Option (Pp K) := do
  let row ← data[i]?
  let n ← norms[i]?
  if current < s.points.length then
    some { s with points := s.points.set current row, picked := i :: s.picked, norm := n, selected := current + 1 }
  else none

/-- What follows the update of the distances, whose sum is `sum`. `plusplus.rs` 445-485. `Uniform::new(0.0, s)` refuses an
infinite bound and, as empty, any that is not positive. -/
def Pp.choose [Field K] [LinearOrder K] (data : List (List K)) (norms : List K) (d : Draws K) (expected current : Nat)
    (s : Pp K) : Option K → Option (Pp K × Option PpError)
  | none => some (s, some ⟨s.selected, expected, .sawInfinity⟩)
  | some sum =>
    if 0 < sum then
      match pickRow s.picked (d.threshold current sum) s.mins 0 (some 0) with
      | some i => (s.take data norms current i).map fun s => (s, none)
      | none => some (s, some ⟨s.selected, expected, .insufficientDiversity⟩)
    else some (s, some ⟨s.selected, expected, .insufficientDiversity⟩)

/-- The loop over the further centers. `plusplus.rs` 432-486. -/
def Pp.loop [Field K] [LinearOrder K] (data : List (List K)) (ncols : Nat) (norms : List K) (d : Draws K) (expected : Nat) :
    List Nat → Pp K → Option (Pp K × Option PpError)
  | [], s => some (s, none)
  | current :: rest, s => do
    let last ← s.points[current - 1]?
    let r ← updateDistances s.mins data ncols norms last s.norm
    let c ← Pp.choose data norms d expected current { s with mins := r.1 } r.2
    match c.2 with
    | some e => some (c.1, some e)
    | none => Pp.loop data ncols norms d expected rest c.1

/-- `kmeans_plusplus_into_inner` on data, its transpose and its norms: the centers, which are overwritten in any case, and the
error. `rows` is the number of rows of the centers. `plusplus.rs` 381-498. -/
def plusPlusInner [Field K] [LinearOrder K] (rows : Nat) (data : List (List K)) (ncols : Nat) (norms : List K)
    (d : Draws K) : Option (List (List K) × Option PpError) :=
  if norms.length = data.length then
    let zeros := List.replicate rows (List.replicate ncols 0)
    if data.length = 0 then
      some (zeros, if rows = 0 then none else some ⟨0, rows, .datasetTooSmall⟩)
    else do
      let s ← Pp.take data norms 0 ⟨zeros, List.replicate data.length none, [], 0, 0⟩ d.first
      let r ← Pp.loop data ncols norms d rows ((List.range (min rows data.length)).drop 1) s
      match r.2 with
      | some e => some (r.1.points, some e)
      | none =>
        some (r.1.points, if r.1.selected ≠ rows then some ⟨r.1.selected, rows, .datasetTooSmall⟩ else none)
  else none

/-- `kmeans_plusplus_into`. `plusplus.rs` 500-520. -/
def plusPlus [Field K] [LinearOrder K] (rows centerCols : Nat) (data : List (List K)) (ncols : Nat) (d : Draws K) :
    Option (List (List K) × Option PpError) :=
  if centerCols = ncols then do
    let norms ← data.mapM squareNorm
    plusPlusInner rows data ncols norms d
  else none

/-! ## Training of the pivots of product quantization -/

/-- `PQTrainingErrorKind`. `train.rs` 252-259. The internal error cannot occur: the view exists whenever the assertion on
the dimensions holds (C78). -/
inductive TrainError
  | canceled
  | initialization (e : PpError)
deriving DecidableEq, Repr

/-- The columns `[start, stop)` of the data: the strided view of a chunk. `train.rs` 156-167. -/
def columns (data : List (List K)) (range : Nat × Nat) : List (List K) := data.map fun r => (r.take range.2).drop range.1

/-- The errors of the initialization that are kept. `train.rs` 185-198. -/
def keepError : Option PpError → Option PpError
  | some e => if e.recoverable then none else some e
  | none => none

/-- The training of one chunk. `cancel` is what the two questions to the cancellation token answer. `train.rs` 135-211. -/
def trainChunk [Field K] [LinearOrder K] (ncenters reps : Nat) (data : List (List K)) (range : Nat × Nat) (d : Draws K)
    (cancel : Bool × Bool) : Option (Except TrainError (List (List K))) :=
  if cancel.1 then some (.error .canceled)
  else do
    let view := columns data range
    let norms ← view.mapM squareNorm
    let r ← plusPlusInner ncenters view (range.2 - range.1) norms d
    match keepError r.2 with
    | some e => some (.error (.initialization e))
    | none =>
      if cancel.2 then some (.error .canceled)
      else do
        let s ← lloydsInner view (range.2 - range.1) norms r.1 reps
        some (.ok s.centers)

/-- The chunks one after the other; the first error ends the training, and is returned with the number of the chunk.
`train.rs` 213-218. Simplification: with rayon the chunks run at the same time, and another chunk's error may be returned. -/
def trainAll [Field K] [LinearOrder K] (ncenters reps : Nat) (data : List (List K)) (d : Nat → Draws K)
    (cancel : Nat → Bool × Bool) : List (Nat × Nat) → Nat → Option (Except (Nat × TrainError) (List (List (List K))))
  | [], _ => some (.ok [])
  | r :: rs, i => do
    let c ← trainChunk ncenters reps data r (d i) (cancel i)
    match c with
    | .error e => some (.error (i, e))
    | .ok m => do
      let rest ← trainAll ncenters reps data d cancel rs (i + 1)
      match rest with
      | .error e => some (.error e)
      | .ok ms => some (.ok (m :: ms))

/-- `LightPQTrainingParameters::train`. `train.rs` 109-230. `schemaDim` is the dimension of the schema, `ranges` its chunks. -/
def train [Field K] [LinearOrder K] (ncenters reps : Nat) (data : List (List K)) (ncols schemaDim : Nat)
    (ranges : List (Nat × Nat)) (d : Nat → Draws K) (cancel : Nat → Bool × Bool) :
    Option (Except (Nat × TrainError) (List (List (List K)))) :=
  if ncols = schemaDim then trainAll ncenters reps data d cancel ranges 0 else none

/-- The loop of `flatten` over the rows of one matrix. `train.rs` 51-54. -/
def pasteRows (col : Nat) : List (List K) → List (List K) → Option (List (List K))
  | dst :: dsts, row :: rows =>
    if col + row.length ≤ dst.length then
      (pasteRows col dsts rows).map ((dst.take col ++ row ++ dst.drop (col + row.length)) :: ·)
    else none
  | dsts, [] => some dsts
  | [], _ :: _ => none

/-- `flatten`, then `into_inner`. `train.rs` 46-58, 67-71. A matrix is its rows and its width. -/
def flatten [Zero K] (pivots : List (List (List K) × Nat)) (ncenters dim : Nat) : Option (List K) :=
  ((pivots.foldlM (fun (acc : List (List K) × Nat) m =>
    if m.1.length = acc.1.length then (pasteRows acc.2 acc.1 m.1).map fun f => (f, acc.2 + m.2) else none)
    (List.replicate ncenters (List.replicate dim 0), 0)).map fun acc => acc.1.flatten)

end Verif.Kmeans
