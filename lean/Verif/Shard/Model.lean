import Verif.Kmeans.DiskModel
import Mathlib.Algebra.Order.Ring.Rat
import Mathlib.Data.Rat.Floor

/-! # The memory limit of a disk index build

The limit and the number of chunks (`diskann-disk/src/build/configuration/disk_index_build_parameter.rs`), the estimate of the
memory of a build, the choice between one build and shards (`diskann-disk/src/build/builder/core.rs`), and the number of shards
(`diskann-disk/src/utils/partition.rs`), with the sampling it uses (`diskann-providers/src/utils/sampling.rs`).

`f64` is `Rat`; the factors 1.1 and 1.3 are exact. The entries of vectors are a linearly ordered field `K` and clustering is the
model of `Verif.Kmeans.DiskModel`. Products of numbers of points, degrees and sizes do not overflow. -/

namespace Verif.Shard

open Verif.Kmeans Verif.Kmeans.Disk

/-! ## Settings -/

/-- A double given by the user. -/
inductive Gib
  | nan
  | inf (negative : Bool)
  | fin (q : Rat)

/-- `f64::round`: half way cases away from zero. -/
def roundAway (q : Rat) : Int := if 0 ≤ q then (q + 1 / 2).floor else -((-q + 1 / 2).floor)

/-- `x as usize` of a rounded double: NaN becomes zero, everything else is clamped. -/
def asUsize : Gib → Nat
  | .nan => 0
  | .inf true => 0
  | .inf false => 2 ^ 64 - 1
  | .fin q => min (roundAway q).toNat (2 ^ 64 - 1)

/-- `gib * BYTES_IN_GB`. Scaling by a power of two is exact; a product too large for a double is clamped either way. -/
def scale : Gib → Gib
  | .nan => .nan
  | .inf s => .inf s
  | .fin q => .fin (q * 2 ^ 30)

/-- `MemoryBudget::try_from_gb`: the bytes, `none` is the error. `disk_index_build_parameter.rs` 45-50. -/
def tryFromGb (gib : Gib) : Option Nat :=
  let bytes := asUsize (scale gib)
  if bytes = 0 then none else some bytes

/-- `PQChunksError`. -/
inductive ChunksError
  | dimensionIsZero
  | outOfRange
deriving DecidableEq

/-- `NumPQChunks::new_with`. `disk_index_build_parameter.rs` 88-103. -/
def numChunks (chunks dim : Nat) : Except ChunksError Nat :=
  if dim = 0 then .error .dimensionIsZero
  else if chunks = 0 then .error .dimensionIsZero
  else if chunks > dim then .error .outOfRange
  else .ok chunks

/-! ## The estimate and the choice -/

/-- `QuantizationType`, without the settings that do not matter for sizes. -/
inductive Quant
  | fp
  | pq (chunks : Nat)
  | sq (nbits : Nat)
  | spherical
deriving DecidableEq

/-- The size of one vector. `core.rs` 52-64; the metadata of a spherical vector has three entries of two bytes. -/
def vectorSize (q : Quant) (dim datasize : Nat) : Nat :=
  match q with
  | .fp => (dim + 7) / 8 * 8 * datasize
  | .pq chunks => chunks
  | .sq nbits => (nbits * dim + 7) / 8 + 4
  | .spherical => (dim + 7) / 8 + 6

/-- `estimate_build_index_ram_usage`. `core.rs` 41-67. -/
def estimate (q : Quant) (datasize degree n dim : Nat) : Rat :=
  11 / 10 * (((n * degree * 4 : Nat) : Rat) * (13 / 10) + ((vectorSize q dim datasize * n : Nat) : Rat))

/-- `IndexBuildStrategy`. -/
inductive Strategy
  | oneShot
  | merged
deriving DecidableEq

/-- `determine_build_strategy`. `core.rs` 505-545. -/
def strategy (q : Quant) (datasize maxDegree maxPoints dim : Nat) (limit : Rat) : Strategy :=
  if estimate q datasize maxDegree maxPoints dim ≥ limit then .merged else .oneShot

/-! ## The number of shards -/

variable {K : Type}

/-- The vectors sampled by `gen_random_slice`: `draws` has one draw for every vector of the file. `sampling.rs` 236-278. The
first vector is read in any case: a file without vectors is an error. -/
def sample (rows : List (List K)) (rate : Rat) (draws : List Rat) : Option (List (List K)) :=
  if rows = [] then none
  else some (((rows.zip draws).filter fun p => p.2 < min rate 1).map (·.1))

/-- `(x as f64 / sampling_rate) as u64`. `partition.rs` 93, 153. -/
def scaleUp (x : Nat) (rate : Rat) : Nat := ⌊(x : Rat) / rate⌋₊

/-- `estimate_initial_partition_count`. `partition.rs` 199-236; `est n` is the estimate for `n` points. -/
def initialParts (est : Nat → Rat) (total k : Nat) (budget : Rat) : Nat :=
  let count := max 3 ⌈est (total * k) / budget⌉₊
  if count % 2 = 0 then count + 1 else count

/-- `shard_counts[shard_id] += 1` for the centers of a block. `partition.rs` 400-405. -/
def addCounts (counts : List Nat) (closest : List Nat) : Option (List Nat) :=
  closest.foldlM (fun counts c => if c < counts.length then some (counts.modify c (· + 1)) else none) counts

/-- The loop over blocks of points. `partition.rs` 379-406. -/
def countBlocks [Field K] [LinearOrder K] (big : K) (order : List (K × Nat) → List (K × Nat)) (pivots : List K)
    (nc dim k block : Nat) : (blocks : Nat) → (rows : List (List K)) → (counts : List Nat) → Option (Except String (List Nat))
  | 0, _, counts => some (.ok counts)
  | blocks + 1, rows, counts => do
    let cur := rows.take block
    let r ← closestCenters big order cur.flatten cur.length dim pivots nc k (cur.length * k) (List.replicate nc []) none
    match r with
    | .error e => some (.error e)
    | .ok ivf => do
      let counts ← addCounts counts ivf.closest
      countBlocks big order pivots nc dim k block blocks (rows.drop block) counts

/-- `estimate_cluster_sizes`; the division by the size of a block panics without points. `partition.rs` 360-415. -/
def clusterSizes [Field K] [LinearOrder K] (big : K) (order : List (K × Nat) → List (K × Nat)) (rows : List (List K))
    (pivots : List K) (nc dim k : Nat) : Option (Except String (List Nat)) :=
  let block := if rows.length ≤ 10000 then rows.length else 10000
  if block = 0 then none
  else countBlocks big order pivots nc dim k block ((rows.length + block - 1) / block) rows (List.replicate nc 0)

/-- The largest estimate of a shard. `partition.rs` 149-161. -/
def maxUsage (est : Nat → Rat) (rate : Rat) (sizes : List Nat) : Rat :=
  sizes.foldl (fun m p => if est (scaleUp p rate) > m then est (scaleUp p rate) else m) 0

/-- How the search for a number of shards ends; `running` means that it has not ended. -/
inductive Found (K : Type)
  | running
  | panic
  | err
  | ok (parts : Nat) (pivots : List K)
deriving DecidableEq

/-- The loop of `find_partition_size`. `partition.rs` 104-192. `draws i` are the random draws of round `i`; `fuel` is the number
of rounds that are watched. -/
def findLoop [Field K] [LinearOrder K] (big : K) (order : List (K × Nat) → List (K × Nat)) (est : Nat → Rat) (rate budget : Rat)
    (k dim : Nat) (train test : List (List K)) (draws : Nat → Draws K) : (fuel i parts : Nat) → Found K
  | 0, _, _ => .running
  | fuel + 1, i, parts =>
    match clustering big order train.flatten train.length dim (List.replicate (parts * dim) 0) parts 10 (draws i) false with
    | none => .panic
    | some (.error _) => .err
    | some (.ok s) =>
      match clusterSizes big order test s.centers parts dim k with
      | none => .panic
      | some (.error _) => .err
      | some (.ok sizes) =>
        if maxUsage est rate sizes > budget then
          findLoop big order est rate budget k dim train test draws fuel (i + 1) (parts + 2)
        else .ok parts s.centers

/-- `find_partition_size`. `partition.rs` 69-196. -/
def findPartitionSize [Field K] [LinearOrder K] (big : K) (order : List (K × Nat) → List (K × Nat)) (est : Nat → Rat)
    (rate budget : Rat) (k dim : Nat) (rows : List (List K)) (trainDraws testDraws : List Rat) (draws : Nat → Draws K)
    (fuel : Nat) : Found K :=
  match sample rows rate trainDraws, sample rows rate testDraws with
  | some train, some test =>
    findLoop big order est rate budget k dim train test draws fuel 0
      (initialParts est (scaleUp train.length rate) k budget)
  | _, _ => .err

/-- The call by the merged build: `core.rs` 437-475. `degree` is the pruned degree, `maxPoints` the configured number of points.
Every vector goes to two shards. -/
def partitionData [Field K] [LinearOrder K] (big : K) (order : List (K × Nat) → List (K × Nat)) (q : Quant)
    (datasize degree maxPoints : Nat) (budget : Rat) (dim : Nat) (rows : List (List K)) (trainDraws testDraws : List Rat)
    (draws : Nat → Draws K) (fuel : Nat) : Found K :=
  findPartitionSize big order (fun n => estimate q datasize (2 * degree / 3) n dim) (50000 / maxPoints) budget 2 dim rows
    trainDraws testDraws draws fuel

end Verif.Shard
