import Mathlib.Algebra.Field.Defs
import Mathlib.Order.Defs.LinearOrder
import Mathlib.Data.Nat.Cast.Defs

/-! # k-means of the disk index

`diskann-disk/src/utils/kmeans.rs` and `diskann-disk/src/utils/math_util.rs`.

`f32` and `f64` are a linearly ordered field `K`; `big` is `f32::MAX`. Data is flat and row-major, as in the code. A result is `none`
for a panic, `error` for an `ANNError`. Loops over a thread pool whose iterations write different places are maps.
Multiplications of lengths do not overflow. The cancellation token cannot change during a call, which borrows it mutably. -/

namespace Verif.Kmeans.Disk

variable {K : Type}

/-- The rows of flat data: `&data[i * dim..(i + 1) * dim]` for every point. -/
def rowsOf (flat : List K) (n dim : Nat) : List (List K) := (List.range n).map fun i => (flat.drop (i * dim)).take dim

/-- `SquaredL2::evaluate`, as C76 proves it. -/
def squaredL2 [Field K] (x y : List K) : K := ((x.zip y).map fun p => (p.1 - p.2) * (p.1 - p.2)).sum

/-- `FastL2NormSquared`, as C76 proves it. -/
def normSquared [Field K] (x : List K) : K := (x.map fun a => a * a).sum

/-- `compute_vecs_l2sq`. `math_util.rs` 81-127. -/
def vecsL2sq [Field K] (n : Nat) (data : List K) (dim : Nat) : Except String (List K) :=
  if dim = 0 then .error "dim must be non-zero"
  else if data.length ≠ n * dim then .error "data.len() should be vecs_l2sq.len() * dim"
  else .ok ((rowsOf data n dim).map normSquared)

/-- `sgemm` with the second matrix transposed: `alpha a bᵀ`, added to `beta c` if there is a `beta`. -/
def gemmT [Field K] (alpha : K) (a b : List (List K)) (beta : Option K) (c : List (List K)) : List (List K) :=
  a.zipIdx.map fun r => b.zipIdx.map fun s =>
    alpha * ((r.1.zip s.1).map fun p => p.1 * p.2).sum +
      match beta with
      | none => 0
      | some β => β * (c.getD r.2 []).getD s.2 0

/-- The distances of a block: three products. `math_util.rs` 160-203. -/
def distMatrix [Field K] (rows centers : List (List K)) (docs cnorms : List K) : List (List K) :=
  let m := gemmT 1 (docs.map fun d => [d]) (centers.map fun _ => [1]) none []
  let m := gemmT 1 (rows.map fun _ => [1]) (cnorms.map fun c => [c]) (some 1) m
  gemmT (-2) rows centers (some 1) m

/-- The first minimum below `f32::MAX`. `math_util.rs` 210-219. -/
def firstMin [LinearOrder K] (big : K) (current : List K) : Nat :=
  (current.zipIdx.foldl (fun (m : K × Nat) p => if p.1 < m.1 then (p.1, p.2) else m) (big, 0)).2

/-- `compute_closest_centers_in_block`: the `k` closest centers of every row. `order` is the order in which the heap gives back
what was pushed. With `k = 0` `par_chunks_mut` panics. `math_util.rs` 138-246. -/
def closestInBlock [Field K] [LinearOrder K] (big : K) (order : List (K × Nat) → List (K × Nat)) (rows centers : List (List K))
    (docs cnorms : List K) (k : Nat) : Option (Except String (List (List Nat))) :=
  if k > centers.length then some (.error "k should be equal or less than num_centers")
  else
    let m := distMatrix rows centers docs cnorms
    if k = 1 then some (.ok (m.map fun current => [firstMin big current]))
    else if k = 0 then none
    else some (.ok (m.map fun current => ((order current.zipIdx).take k).map (·.2)))

/-- The closest centers and the inverted index. -/
structure Ivf where
  closest : List Nat
  inverted : List (List Nat)
deriving DecidableEq, Repr

/-- What is done with one point's centers; a center outside the inverted index panics. `math_util.rs` 390-400. -/
def pushCenters (st : Ivf) (p : List Nat × Nat) : Option Ivf :=
  p.1.foldlM (fun (st : Ivf) c =>
    if c < st.inverted.length then some ⟨st.closest ++ [c], st.inverted.modify c (· ++ [p.2])⟩ else none) st

/-- The loop over chunks of 1200 points, `start` being the number of the first point. `math_util.rs` 359-402. The result
replaces the contents of `closest_centers_ivf`, which is written from the front. -/
def closestChunks [Field K] [LinearOrder K] (big : K) (order : List (K × Nat) → List (K × Nat)) (centers : List (List K))
    (cnorms : List K) (k : Nat) : (fuel : Nat) → (rows : List (List K)) → (docs : List K) → (start : Nat) → Ivf →
    Option (Except String Ivf)
  | 0, _, _, _, st => some (.ok st)
  | fuel + 1, rows, docs, start, st =>
    if rows = [] then some (.ok st)
    else do
      let r ← closestInBlock big order (rows.take 1200) centers (docs.take 1200) cnorms k
      match r with
      | .error e => some (.error e)
      | .ok cs => do
        let st ← (cs.zipIdx start).foldlM pushCenters st
        closestChunks big order centers cnorms k fuel (rows.drop 1200) (docs.drop 1200) (start + 1200) st

/-- The norms that are used: those given, after a check of their number, or computed. `math_util.rs` 337-352. -/
def pointNorms [Field K] (data : List K) (n dim : Nat) : Option (List K) → Except String (List K)
  | some given => if given.length ≠ n then .error "pts_norms_squared.len() should equal num_points" else .ok given
  | none => vecsL2sq n data dim

/-- `compute_closest_centers`. `ivfLen` is the length of the output slice, `inverted` the index that is extended.
`math_util.rs` 257-404. -/
def closestCenters [Field K] [LinearOrder K] (big : K) (order : List (K × Nat) → List (K × Nat)) (data : List K) (n dim : Nat)
    (pivots : List K) (ncenters k ivfLen : Nat) (inverted : List (List Nat)) (norms : Option (List K)) :
    Option (Except String Ivf) :=
  if k > ncenters then some (.error "k should be equal or less than num_centers")
  else if data.length ≠ n * dim then some (.error "data.len() should equal num_points * dim")
  else if pivots.length ≠ ncenters * dim then some (.error "pivot_data.len() should equal num_centers * dim")
  else if ivfLen ≠ n * k then some (.error "closest_centers_ivf.len() should equal num_points * k")
  else
    match pointNorms data n dim norms with
    | .error e => some (.error e)
    | .ok docs =>
      match vecsL2sq ncenters pivots dim with
      | .error e => some (.error e)
      | .ok cnorms =>
        closestChunks big order (rowsOf pivots ncenters dim) cnorms k n (rowsOf data n dim) docs 0 ⟨[], inverted⟩

/-! ## Lloyd's algorithm -/

/-- The new value of a center: the mean of its points, zero without points. `kmeans.rs` 64-82. -/
def newCenter [Field K] (rows : List (List K)) (dim : Nat) (docs : List Nat) : List K :=
  if docs.isEmpty then List.replicate dim 0
  else (List.range dim).map fun j => (docs.map fun d => (rows.getD d []).getD j 0).sum / (docs.length : K)

/-- The value that the loop of `lloyds_iter` writes to entry `chunk` of `residuals`. `kmeans.rs` 95-104. -/
def residualEntry [Field K] (rows centers : List (List K)) (closest : List Nat) (n chunk : Nat) : K :=
  ((List.range' (chunk * 16384) (min n ((chunk + 1) * 16384) - chunk * 16384)).map fun d =>
    squaredL2 (rows.getD d []) (centers.getD (closest.getD d 0) [])).sum

/-- The residual: `residuals` has 32 entries per chunk, one in 32 is added. `kmeans.rs` 84-109. -/
def residualOf [Field K] (rows centers : List (List K)) (closest : List Nat) (n : Nat) : Option K :=
  let nchunks := (n + 16384 - 1) / 16384
  let residuals := (List.range (nchunks * 32)).map (residualEntry rows centers closest n)
  (List.range nchunks).foldlM (fun s chunk => residuals[chunk * 32]?.map (s + ·)) 0

/-- What an iteration leaves. -/
structure Iter (K : Type) where
  centers : List K
  docs : List (List Nat)
  closest : List Nat
  residual : K
deriving DecidableEq, Repr

/-- `lloyds_iter`. `kmeans.rs` 36-112. -/
def lloydsIter [Field K] [LinearOrder K] (big : K) (order : List (K × Nat) → List (K × Nat)) (data : List K) (n dim : Nat)
    (centers : List K) (ncenters : Nat) (norms : List K) : Option (Except String (Iter K)) := do
  let r ← closestCenters big order data n dim centers ncenters 1 n (List.replicate ncenters []) (some norms)
  match r with
  | .error e => some (.error e)
  | .ok ivf => do
    let cs := ivf.inverted.map (newCenter (rowsOf data n dim) dim)
    let res ← residualOf (rowsOf data n dim) cs ivf.closest n
    some (.ok ⟨cs.flatten, ivf.inverted, ivf.closest, res⟩)

/-- The test at the end of iteration `i`. `kmeans.rs` 163. For the residual 0 both the code, by the second part, and the model,
by either, stop. -/
def stops [Field K] [LinearOrder K] (i : Nat) (old res : K) : Bool :=
  (decide (i ≠ 0) && decide ((old - res) / res < 1 / 100000)) || decide (res < 1 / 8388608)

/-- The loop of `run_lloyds`, `left` iterations being left, `i` being the number of the next. `kmeans.rs` 141-166. -/
def lloydsLoop [Field K] [LinearOrder K] (big : K) (order : List (K × Nat) → List (K × Nat)) (data : List K) (n dim : Nat)
    (ncenters : Nat) (norms : List K) (cancel : Bool) : (left i : Nat) → Iter K → Option (Except String (Iter K))
  | 0, _, s => some (.ok s)
  | left + 1, i, s =>
    if cancel then some (.error "Cancellation requested by caller")
    else do
      let r ← lloydsIter big order data n dim s.centers ncenters norms
      match r with
      | .error e => some (.error e)
      | .ok s' =>
        if stops i s.residual s'.residual then some (.ok s')
        else lloydsLoop big order data n dim ncenters norms cancel left (i + 1) s'

/-- `run_lloyds`. `kmeans.rs` 120-169. -/
def runLloyds [Field K] [LinearOrder K] (big : K) (order : List (K × Nat) → List (K × Nat)) (data : List K) (n dim : Nat)
    (centers : List K) (ncenters maxReps : Nat) (cancel : Bool) : Option (Except String (Iter K)) :=
  match vecsL2sq n data dim with
  | .error e => some (.error e)
  | .ok norms =>
    lloydsLoop big order data n dim ncenters norms cancel maxReps 0
      ⟨centers, List.replicate ncenters [], List.replicate n 0, big⟩

/-! ## k-means++ -/

/-- The random draws: the first point, the darts in `[0, 1)` and the points that fill up. -/
structure Draws (K : Type) where
  first : Nat
  dart : Nat → K
  fill : Nat → Nat

/-- The outcome of the loop that looks for the point hit by the dart. -/
inductive Dart (K : Type)
  | picked (i : Nat) (pre : K)
  | again
  | missed (pre : K)

/-- The loop over the distances. `kmeans.rs` 332-352. -/
def throwDart [Field K] [LinearOrder K] (picked : List Nat) (dart : K) : List K → Nat → K → Dart K
  | [], _, pre => .missed pre
  | d :: ds, i, pre =>
    if pre ≤ dart ∧ (dart < pre + d ∨ dart ≤ pre ∧ d ≠ 0) then
      if picked.contains i then .again else .picked i pre
    else throwDart picked dart ds (i + 1) (pre + d)

/-- The loop state: the set of chosen points, in the order they were chosen, the buffer and the distances. -/
structure Pivots (K : Type) where
  picked : List Nat
  pivots : List (List K)
  dist : List K

/-- Write row `j` of the pivots; `(picked.len() - 1) * dim` is its offset. `kmeans.rs` 371-374, 392-395. -/
def setPivot (pivots : List (List K)) (j : Nat) (row : List K) : Option (List (List K)) :=
  if j < pivots.length then some (pivots.set j row) else none

/-- What is done with the point that was hit. `kmeans.rs` 346, 370-384. -/
def Pivots.add [Field K] [LinearOrder K] (rows : List (List K)) (s : Pivots K) (i : Nat) : Option (Pivots K) := do
  let row ← rows[i]?
  let pivots ← setPivot s.pivots s.picked.length row
  some ⟨s.picked ++ [i], pivots, List.zipWith (fun d r => min d (squaredL2 r row)) s.dist rows⟩

/-- One iteration: `none` inside means that all different points have been picked. `kmeans.rs` 301-385. -/
def Pivots.step [Field K] [LinearOrder K] (rows : List (List K)) (dart : K) (s : Pivots K) :
    Option (Except String (Option (Pivots K))) :=
  if s.dist.sum = 0 then some (.ok none)
  else
    match throwDart s.picked (dart * s.dist.sum) s.dist 0 0 with
    | .again => some (.error "A pivot was sampled again")
    | .missed pre =>
      if pre > s.dist.sum then some (.error "Prefix sum should not be greater than sum")
      else some (.error "Did not pick a pivot in this loop")
    | .picked i pre =>
      if pre > s.dist.sum then some (.error "Prefix sum should not be greater than sum")
      else (s.add rows i).map fun s => .ok (some s)

/-- The loop; `t` is the number of the next dart. `kmeans.rs` 301-385. -/
def Pivots.loop [Field K] [LinearOrder K] (rows : List (List K)) (d : Draws K) (cancel : Bool) : (left t : Nat) → Pivots K →
    Option (Except String (Pivots K))
  | 0, _, s => some (.ok s)
  | left + 1, t, s =>
    if cancel then some (.error "Cancellation requested by caller")
    else do
      let r ← s.step rows (d.dart t)
      match r with
      | .error e => some (.error e)
      | .ok none => some (.ok s)
      | .ok (some s') => Pivots.loop rows d cancel left (t + 1) s'

/-- The remaining pivots are drawn at random. `kmeans.rs` 388-396. -/
def fillUp (rows : List (List K)) (d : Draws K) : List Nat → List (List K) → Option (List (List K))
  | [], pivots => some pivots
  | j :: js, pivots => do
    let row ← rows[d.fill j]?
    let pivots ← setPivot pivots j row
    fillUp rows d js pivots

/-- `k_meanspp_selecting_pivots`: the new contents of the buffer `pivots`. Data that is too short panics when the distances
are computed. Simplified: for `dim = 0` and no centers the code does nothing, the model panics. `kmeans.rs` 236-399. -/
def selectPivots [Field K] [LinearOrder K] (data : List K) (n dim : Nat) (pivots : List K) (ncenters : Nat) (d : Draws K)
    (cancel : Bool) : Option (Except String (List K)) :=
  if n > 2 ^ 23 then some (.error "Number of points is greater than 8388608")
  else if pivots.length ≠ ncenters * dim then some (.error "Pivot data buffer should be of size num_centers * dim")
  else if cancel then some (.error "Cancellation requested by caller")
  else if n = 0 then some (.error "cannot cluster an empty dataset")
  else if data.length < n * dim then none
  else do
    let rows := rowsOf data n dim
    let row ← rows[d.first]?
    let buffer ← setPivot (rowsOf pivots ncenters dim) 0 row
    let r ← Pivots.loop rows d cancel (ncenters - 1) 1 ⟨[d.first], buffer, rows.map fun r => squaredL2 r row⟩
    match r with
    | .error e => some (.error e)
    | .ok s => do
      let buffer ← fillUp rows d ((List.range ncenters).drop s.picked.length) s.pivots
      some (.ok buffer.flatten)

/-- `k_means_clustering`. `kmeans.rs` 403-435. -/
def clustering [Field K] [LinearOrder K] (big : K) (order : List (K × Nat) → List (K × Nat)) (data : List K) (n dim : Nat)
    (centers : List K) (ncenters maxReps : Nat) (d : Draws K) (cancel : Bool) : Option (Except String (Iter K)) := do
  let r ← selectPivots data n dim centers ncenters d cancel
  match r with
  | .error e => some (.error e)
  | .ok centers => runLloyds big order data n dim centers ncenters maxReps cancel

end Verif.Kmeans.Disk
