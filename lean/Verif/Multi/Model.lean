import Mathlib.Algebra.Order.Ring.Defs
import Verif.Vec.BlockModel

/-! # Multi-vector distances

`diskann-quantization/src/multi_vector/distance/` and `diskann-quantization/src/minmax/multi/max_sim.rs`. Arithmetic is
exact over `K`; `fmax` is `f32::MAX` and `f32::MIN` is `-fmax`. A pointer is an offset into a list; a read or write outside
it, a panic, or a loop that never ends is `none`. `conv` is the conversion of stored elements to `f32` (the identity for
`f32`, the exact widening for `f16`). -/

namespace Verif.Multi

open Verif.Vec

/-- `MatRef<Standard<T>>`: row-major elements. -/
structure Mat (T : Type) where
  data : List T
  nrows : Nat
  ncols : Nat

/-- Row `i` of `MatRef::rows`. -/
def Mat.row {T : Type} (m : Mat T) (i : Nat) : List T := (m.data.drop (i * m.ncols)).take m.ncols

/-- `MatRef::rows`. -/
def Mat.rows {T : Type} (m : Mat T) : List (List T) := (List.range m.nrows).map m.row

/-- A micro-kernel: `kernels/f32/scalar.rs` and `kernels/f32/v3.rs`. `regs` registers of `lanes` lanes hold a panel of A;
a panel of B has `bPanel` rows. -/
structure Kern where
  lanes : Nat
  regs : Nat
  bPanel : Nat

/-- `K::A_PANEL`, `scalar.rs` 27 and `v3.rs` 23. -/
def Kern.aPanel (c : Kern) : Nat := c.regs * c.lanes

/-- `F32Kernel<8>` on `Scalar`, `kernels/f32/scalar.rs`. -/
def scalarKern : Kern := ⟨8, 1, 2⟩

/-- `F32Kernel<16>` on `V3`, `kernels/f32/v3.rs` 20-54. -/
def v3Kern : Kern := ⟨8, 2, 4⟩

/-- `TileBudget`, `kernels/mod.rs`. -/
structure Budget where
  l2a : Nat
  l1b : Nat

/-- `FullReduce`, `tiled_reduce.rs` 34-38. -/
structure Plan where
  aPanels : Nat
  bPanels : Nat

/-- `FullReduce::new`, `tiled_reduce.rs` 45-65. -/
def Plan.new (aRowBytes bRowBytes aPanel bPanel : Nat) (budget : Budget) : Plan :=
  let aRowBytes := max aRowBytes 1
  let bRowBytes := max bRowBytes 1
  let aPanels := max (budget.l2a / (aRowBytes * aPanel)) 1
  let aPanelBytes := aPanel * aRowBytes
  let bTileBudget := budget.l1b - aPanelBytes
  let bPanels := max (bTileBudget / (bRowBytes * bPanel)) 1
  ⟨aPanels, bPanels⟩

section

variable {K : Type} [CommRing K] [LinearOrder K]

/-- `Reduce::reduce` with `max_simd` for arrays of one to four, `reduce.rs` 26-80, one lane. -/
def reduceMax : List K → Option K
  | [a] => some a
  | [a, b] => some (max a b)
  | [a, b, c] => some (max (max a b) c)
  | [a, b, c, d] => some (max (max a b) (max c d))
  | _ => none

/-- One lane of the accumulation of `p[j]` over `i in 0..k`, `v3.rs` 88-99: `a0.mul_add_simd(bj, p0[j])`. -/
def accum (stride : Nat) (a b : List K) (k pa pb lane j : Nat) : Option K :=
  (List.range k).foldlM (fun acc i => do
    let x ← a[pa + stride * i + lane]?
    let y ← b[pb + (i + k * j)]?
    pure (x * y + acc)) 0

/-- One lane of one register of `f32_microkernel::<UNROLL>`, `v3.rs` 77-107: accumulate, reduce, merge with `r`. -/
def regLane (c : Kern) (unroll : Nat) (a b : List K) (k pa pb : Nat) (r : List K) (pr reg lane : Nat) : Option K := do
  let ps ← (List.range unroll).mapM (accum (c.regs * c.lanes) a b k pa pb (c.lanes * reg + lane))
  let m ← reduceMax ps
  let r0 ← r[pr + c.lanes * reg + lane]?
  pure (max r0 m)

/-- `store_simd`, `v3.rs` 109-112. -/
def storeAt (r : List K) (pos : Nat) (vals : List K) : Option (List K) :=
  if pos + vals.length ≤ r.length then some (r.take pos ++ vals ++ r.drop (pos + vals.length)) else none

/-- `f32_microkernel::<UNROLL>`, `v3.rs` 68-113 (two registers); `scalar.rs` (one). The registers are computed from `r` as
it was, then stored. -/
def microkernel (c : Kern) (unroll : Nat) (a b : List K) (k pa pb : Nat) (r : List K) (pr : Nat) : Option (List K) := do
  let vals ← (List.range c.regs).mapM (fun reg =>
    (List.range c.lanes).mapM (regLane c unroll a b k pa pb r pr reg))
  storeAt r pr vals.flatten

/-- `K::full_panel`, `v3.rs` 26-30. -/
def fullPanel (c : Kern) (a b : List K) (k pa pb : Nat) (r : List K) (pr : Nat) : Option (List K) :=
  microkernel c c.bPanel a b k pa pb r pr

/-- `K::partial_panel`, `v3.rs` 33-53: `unreachable!` unless `1 ≤ remainder < B_PANEL`. -/
def partialPanel (c : Kern) (remainder : Nat) (a b : List K) (k pa pb : Nat) (r : List K) (pr : Nat) : Option (List K) :=
  if 1 ≤ remainder ∧ remainder < c.bPanel then microkernel c remainder a b k pa pb r pr else none

/-- Loop 4, `tiled_reduce.rs` 185-188 and 219-222: full B panels, from `pb` to `pbEnd`; returns the last `pb_panel`. -/
def loop4 (c : Kern) (a b : List K) (k pa pr pbEnd : Nat) : Nat → Nat → List K → Option (Nat × List K)
  | 0, _, _ => none
  | n + 1, pb, r =>
    if pb < pbEnd then
      match fullPanel c a b k pa pb r pr with
      | none => none
      | some r' => loop4 c a b k pa pr pbEnd n (pb + c.bPanel * k) r'
    else some (pb, r)

/-- The remainder dispatch, `tiled_reduce.rs` 225-227. -/
def remPanel (c : Kern) (rem : Nat) (a b : List K) (k pa pb : Nat) (r : List K) (pr : Nat) : Option (List K) :=
  if 0 < rem then partialPanel c rem a b k pa pb r pr else some r

/-- Loop 3, `tiled_reduce.rs` 181-192 (with `rem = 0`: a full tile has no remainder check) and 215-231. -/
def loop3 (c : Kern) (a b : List K) (k paEnd pbEnd rem : Nat) : Nat → Nat → Nat → List K → Option (List K)
  | 0, _, _, _ => none
  | n + 1, pa, pr, r =>
    if pa < paEnd then
      match loop4 c a b k pa pr pbEnd (pbEnd + 1) 0 r with
      | none => none
      | some (pb, r1) =>
        match remPanel c rem a b k pa pb r1 pr with
        | none => none
        | some r2 => loop3 c a b k paEnd pbEnd rem n (pa + c.aPanel * k) (pr + c.aPanel) r2
    else some r

variable {T : Type} (conv : T → K)

/-- `ConvertTo::convert`, `layouts.rs` 125-219, into a buffer of `cap * k` elements (`new_buffer`). The identity conversion
returns the source pointer and has no capacity; the model is stricter: it requires the capacity and gives access only to
the tile. -/
def convertTile (cap : Nat) (src : List T) (off rows k : Nat) : Option (List K) :=
  if rows * k ≤ cap * k ∧ off + rows * k ≤ src.length then some (((src.drop off).take (rows * k)).map conv) else none

/-- Loop 2, full B tiles, `tiled_reduce.rs` 172-194; returns the last `pb_tile_src`. -/
def loop2 (c : Kern) (a : List K) (b : List T) (k paEnd pr bCap bTileRows pbFullEnd : Nat) :
    Nat → Nat → List K → Option (Nat × List K)
  | 0, _, _ => none
  | n + 1, pbSrc, r =>
    if pbSrc + bTileRows * k ≤ pbFullEnd then
      match convertTile conv bCap b pbSrc bTileRows k with
      | none => none
      | some bt =>
        match loop3 c a bt k paEnd (bTileRows * k) 0 (paEnd + 1) 0 pr r with
        | none => none
        | some r' => loop2 c a b k paEnd pr bCap bTileRows pbFullEnd n (pbSrc + bTileRows * k) r'
    else some (pbSrc, r)

/-- The peeled last B tile, `tiled_reduce.rs` 203-232. -/
def peeled (c : Kern) (a : List K) (b : List T) (bRows k paEnd pr bCap pbSrc : Nat) (r : List K) : Option (List K) :=
  if pbSrc < bRows * k then
    let remaining := bRows - pbSrc / k
    match convertTile conv bCap b pbSrc remaining k with
    | none => none
    | some bt => loop3 c a bt k paEnd (remaining / c.bPanel * (c.bPanel * k)) (bRows % c.bPanel) (paEnd + 1) 0 pr r
  else some r

/-- The body of loop 1, `tiled_reduce.rs` 151-232: one A tile of `tileRows` rows from `rowsDone`. -/
def aTile (c : Kern) (a b : List T) (bRows k aCap bCap bTileRows : Nat) (tileRows rowsDone : Nat) (r : List K) :
    Option (List K) :=
  match convertTile conv aCap a (rowsDone * k) tileRows k with
  | none => none
  | some at' =>
    match loop2 conv c at' b k (tileRows * k) rowsDone bCap bTileRows (bRows * k - (bRows % c.bPanel) * k)
        (bRows * k + 1) 0 r with
    | none => none
    | some (pbSrc, r1) => peeled conv c at' b bRows k (tileRows * k) rowsDone bCap pbSrc r1

/-- Loop 1, `tiled_reduce.rs` 149-235. -/
def loop1 (c : Kern) (a b : List T) (aRows bRows k aCap bCap aTileRows bTileRows : Nat) :
    Nat → Nat → List K → Option (List K)
  | 0, _, _ => none
  | n + 1, rowsDone, r =>
    if rowsDone < aRows then
      match aTile conv c a b bRows k aCap bCap bTileRows (min aTileRows (aRows - rowsDone)) rowsDone r with
      | none => none
      | some r' =>
        loop1 c a b aRows bRows k aCap bCap aTileRows bTileRows n (rowsDone + min aTileRows (aRows - rowsDone)) r'
    else some r

/-- `tiled_reduce`, `tiled_reduce.rs` 89-237; the kernel's elements have four bytes. -/
def tiledReduce (c : Kern) (budget : Budget) (a : List T) (aRows : Nat) (b : List T) (bRows k : Nat) (scratch : List K) :
    Option (List K) :=
  let plan := Plan.new (k * 4) (k * 4) c.aPanel c.bPanel budget
  if aRows % c.aPanel ≠ 0 then none
  else if k = 0 then
    if 0 < bRows then
      if aRows ≤ scratch.length then some (List.replicate aRows 0 ++ scratch.drop aRows) else none
    else some scratch
  else
    let aTileRows := c.aPanel * plan.aPanels
    let bTileRows := c.bPanel * plan.bPanels
    loop1 conv c a b aRows bRows k (min aTileRows aRows) (min bTileRows bRows) aTileRows bTileRows (aRows + 1) 0 scratch

/-- `max_ip_kernel`, `kernels/f32/mod.rs` 64-111; `f16.rs` calls the same function. `A_PANEL == GROUP` is asserted at
compile time. -/
def maxIpKernel (c : Kern) (budget : Budget) (a : BMat T) (b : Mat T) (scratch : List K) : Option (List K) :=
  if scratch.length ≠ nextMul a.repr.nrows a.repr.group ∨ a.repr.ncols ≠ b.ncols then none
  else if c.aPanel ≠ a.repr.group then none
  else tiledReduce conv c budget a.mem (nextMul a.repr.nrows a.repr.group) b.data b.nrows a.repr.ncols scratch

/-- `MaxSimError`, `max_sim.rs` 9-15. -/
inductive Err where
  | indexOutOfBounds (i n : Nat)
  | invalidBufferLength (got want : Nat)
  deriving DecidableEq

variable (fmax : K)

/-- `Prepared::compute_max_sim`, `factory.rs` 48-71 (f32) and 90-113 (f16). The scores it leaves, or the error. -/
def preparedCompute (c : Kern) (budget : Budget) (q : BMat T) (doc : Mat T) (scores : List K) :
    Option (Except Err (List K)) :=
  if scores.length ≠ q.repr.nrows then some (.error (.invalidBufferLength scores.length q.repr.nrows))
  else if doc.nrows = 0 then some (.ok (List.replicate scores.length fmax))
  else
    match maxIpKernel conv c budget q doc (List.replicate (nextMul q.repr.nrows q.repr.group) (-fmax)) with
    | none => none
    | some scratch => if q.repr.nrows ≤ scratch.length then some (.ok ((scratch.take q.repr.nrows).map (fun x => -x))) else none

/-- `BuildAndErase::run`, `factory.rs` 176-260: block-transpose the query with blocks of `A_PANEL` rows. -/
def prepare [Zero T] (c : Kern) (elsize : Nat) (q : Mat T) : Option (BMat T) :=
  BMat.fromStrided c.aPanel 1 elsize ⟨q.data, q.nrows, q.ncols, q.ncols⟩

/-- `InnerProduct::evaluate` on two slices (the negated inner product; unequal lengths panic). -/
def negIp (x y : List T) : Option K :=
  if x.length = y.length then some (-((List.zipWith (fun a b => conv a * conv b) x y).sum)) else none

/-- The inner loop of `max_sim_kernel`, `fallback.rs` 92-98. -/
def minLoop (q : List T) : List (List T) → K → Option K
  | [], m => some m
  | d :: ds, m =>
    match negIp conv q d with
    | none => none
    | some x => minLoop q ds (min m x)

/-- `FallbackKernel::max_sim_kernel`, `fallback.rs` 78-102: the calls `f(i, score)` in order, from query `i` on. -/
def simLoop (docs : List (List T)) : Nat → List (List T) → Option (List (Nat × K))
  | _, [] => some []
  | i, q :: qs =>
    match minLoop conv q docs fmax with
    | none => none
    | some x =>
      match simLoop docs (i + 1) qs with
      | none => none
      | some l => some ((i, x) :: l)

/-- `max_sim_kernel` with its early exit, `fallback.rs` 86-90. -/
def maxSimKernel (q doc : Mat T) : Option (List (Nat × K)) :=
  if doc.nrows = 0 then some [] else simLoop conv fmax doc.rows 0 q.rows

/-- `MaxSim::evaluate`, `fallback.rs` 160-181. -/
def maxSimEvaluate (q doc : Mat T) (scores : List K) : Option (Except Err (List K)) :=
  if scores.length ≠ q.nrows then some (.error (.invalidBufferLength scores.length q.nrows))
  else
    match maxSimKernel conv fmax q doc with
    | none => none
    | some calls => some (.ok (calls.foldl (fun s p => s.set p.1 p.2) scores))

/-- `Chamfer::evaluate`, `fallback.rs` 193-202. -/
def chamferEvaluate (q doc : Mat T) : Option K :=
  match maxSimKernel conv fmax q doc with
  | none => none
  | some calls => some (calls.foldl (fun s p => s + p.2) 0)

/-- `ReferenceKernel::compute_max_sim`, `factory.rs` 150-166. -/
def referenceCompute (q doc : Mat T) (scores : List K) : Option (Except Err (List K)) :=
  if scores.length ≠ q.nrows then some (.error (.invalidBufferLength scores.length q.nrows))
  else if doc.nrows = 0 then some (.ok (List.replicate scores.length fmax))
  else maxSimEvaluate conv fmax q doc scores

/-- The inner loop of `projected_eigen_kernel`, `fallback.rs` 132-140. -/
def eigenLoop (q : List T) : List (List T) → K → Option K
  | [], m => some m
  | d :: ds, m =>
    match negIp conv q d with
    | none => none
    | some x => eigenLoop q ds (m + -(x * x))

/-- `projected_eigen_kernel` and `ProjectedEigen::evaluate`, `fallback.rs` 121-145 and 213-222, from the sum so far. -/
def eigenSum (docs : List (List T)) : List (List T) → K → Option K
  | [], s => some s
  | q :: qs, s =>
    match eigenLoop conv q docs 0 with
    | none => none
    | some x => eigenSum docs qs (s + x)

/-- `ProjectedEigen::evaluate`, `fallback.rs` 208-222, with the early exit, 127-130. -/
def eigenEvaluate (q doc : Mat T) : Option K :=
  if doc.nrows = 0 then some 0 else eigenSum conv doc.rows q.rows 0

/-- `MaxSim::get`, `max_sim.rs` 55-61. -/
def scoreGet (scores : List K) (i : Nat) : Except Err K :=
  match scores[i]? with
  | some x => .ok x
  | none => .error (.indexOutOfBounds i scores.length)

/-- `MaxSim::set`, `max_sim.rs` 64-75. -/
def scoreSet (scores : List K) (i : Nat) (x : K) : Except Err (List K) :=
  if i < scores.length then .ok (scores.set i x) else .error (.indexOutOfBounds i scores.length)

/-! ## Quantized multi-vectors, `diskann-quantization/src/minmax/multi/max_sim.rs`

`dist q d` is `MinMaxIP::evaluate`: `none` is its `UnequalLengths` error. -/

variable {Q D : Type} (dist : Q → D → Option K)

/-- The inner loop, 55-64: `none` is the error that leaves the kernel. -/
def mmMinLoop (q : Q) : List D → K → Option K
  | [], m => some m
  | d :: ds, m =>
    match dist q d with
    | none => none
    | some x => mmMinLoop q ds (min m x)

/-- `MinMaxKernel::max_sim_kernel`, 37-72: the calls made before it returned. -/
def mmCalls (docs : List D) : Nat → List Q → List (Nat × K)
  | _, [] => []
  | i, q :: qs =>
    match mmMinLoop dist q docs fmax with
    | none => []
    | some x => (i, x) :: mmCalls docs (i + 1) qs

/-- `MaxSim::evaluate` on quantized multi-vectors, 89-108: the error is dropped; a wrong buffer panics. -/
def mmEvaluate (qs : List Q) (docs : List D) (scores : List K) : Option (List K) :=
  if scores.length = qs.length then some ((mmCalls fmax dist docs 0 qs).foldl (fun s p => s.set p.1 p.2) scores) else none

/-- `Chamfer::evaluate` on quantized multi-vectors, 124-136. -/
def mmChamfer (qs : List Q) (docs : List D) : K :=
  (mmCalls fmax dist docs 0 qs).foldl (fun s p => s + p.2) 0

end

end Verif.Multi
