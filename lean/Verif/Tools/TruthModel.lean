import Verif.Queue.Spec
import Verif.Disk.VectorFileModel
import Mathlib.Algebra.Order.Field.Basic
/-!
# Model of the ground truth tools

`compute_ground_truth_from_data`, `compute_range_ground_truth_from_data`, `compute_multivec_ground_truth_from_data`
and the writers of `diskann-tools/src/utils/ground_truth.rs`; the readers `load_truthset`, `load_range_truthset` and
`load_vector_filters` of `diskann-tools/src/utils/search_index_utils.rs`.

The dataset is the list of the pairs its iterator yields (C70 is about the iterator).  The distance is a parameter, a
NaN is `none`.  The queries of a batch run on a thread pool, each on its own queue: they are modelled one after the
other.  A `BitSet` is the list of its elements.  A panic is the outer `none`.
-/
namespace Verif.Tools

open Verif.Queue Verif.Disk

variable {V Q D A : Type} [LinearOrder D]

abbrev Bitmap := List Nat

/-- `allowed_by_bitmap` (ground_truth.rs 645-653): no bitmaps allow everything; `bitmaps[idx_query]` may panic. -/
def allowed (bms : Option (List Bitmap)) (qi idx : Nat) : Option Bool :=
  match bms with
  | none => some true
  | some bs => (bs[qi]?).map (fun b => b.contains idx)

/-- One point offered to one query (ground_truth.rs 643-658 and 672-687); the id is cast to `u32`. -/
def offer (pad : D) (dist : V → Q → Option D) (bms : Option (List Bitmap)) (base qi : Nat) (q : Q)
    (nq : Queue Nat D) (x : V × Nat) : Option (Queue Nat D) :=
  match allowed bms qi ((base + x.2) % 4294967296) with
  | none => none
  | some false => some nq
  | some true => nq.insert pad ((base + x.2) % 4294967296) (dist x.1 q)

/-- A query and its queue. -/
abbrev Slot (Q D : Type) := Q × Queue Nat D

/-- The closure run for one query on a batch (ground_truth.rs 639-661). -/
def offerBatch (pad : D) (dist : V → Q → Option D) (bms : Option (List Bitmap)) (base : Nat) (batch : List V)
    (qi : Nat) (s : Slot Q D) : Option (Slot Q D) :=
  (batch.zipIdx.foldlM (offer pad dist bms base qi s.1) s.2).map (fun nq => (s.1, nq))

/-- The closure run for every query, with its position. -/
def forQueries {S : Type} (f : Nat → S → Option S) : Nat → List S → Option (List S)
  | _, [] => some []
  | i, s :: rest =>
    match f i s with
    | none => none
    | some s' =>
      match forQueries f (i + 1) rest with
      | none => none
      | some rest' => some (s' :: rest')

/-- `Itertools::chunks`, with the number of chunks bounded by `fuel`. -/
def chunksF {α : Type} (n : Nat) : Nat → List α → List (List α)
  | 0, _ => []
  | fuel + 1, l => if l.isEmpty then [] else l.take n :: chunksF n fuel (l.drop n)

/-- `batch_size` (ground_truth.rs 614). -/
def batchSize : Nat := 10000

/-- What the loop over the batches keeps (ground_truth.rs 605-621). -/
structure GtState (Q D A : Type) where
  slots : List (Slot Q D)
  numBase : Nat
  assoc : List A

/-- One batch (ground_truth.rs 623-664). -/
def batchStep (pad : D) (dist : V → Q → Option D) (bms : Option (List Bitmap)) (st : GtState Q D A)
    (chunk : List (V × A)) : Option (GtState Q D A) :=
  if chunk.isEmpty then some st
  else
    (forQueries (offerBatch pad dist bms st.numBase (chunk.map (·.1))) 0 st.slots).map fun slots =>
      { slots := slots, numBase := st.numBase + chunk.length, assoc := st.assoc ++ chunk.map (·.2) }

/-- One inserted point (ground_truth.rs 667-689). -/
def insertStep (pad : D) (dist : V → Q → Option D) (bms : Option (List Bitmap)) (numBase : Nat)
    (slots : List (Slot Q D)) (x : V × Nat) : Option (List (Slot Q D)) :=
  forQueries (fun qi s => (offer pad dist bms numBase qi s.1 s.2 x).map (fun nq => (s.1, nq))) 0 slots

/-- The loop over the inserted points (ground_truth.rs 666-693). -/
def insertLoop (pad : D) (dist : V → Q → Option D) (bms : Option (List Bitmap)) (inserted : List V)
    (st : GtState Q D A) : Option (List (Queue Nat D) × List A) :=
  (inserted.zipIdx.foldlM (insertStep pad dist bms st.numBase) st.slots).map
    (fun slots => (slots.map (·.2), st.assoc))

/-- `compute_ground_truth_from_data` (ground_truth.rs 589-693): the queues and the associated data by id. -/
def computeTruth (pad : D) (dist : V → Q → Option D) (recallAt : Nat) (base : List (V × A)) (inserted : List V)
    (skipBase : Nat) (bms : Option (List Bitmap)) (queries : List Q) : Option (List (Queue Nat D) × List A) :=
  let start : GtState Q D A := ⟨queries.map (fun q => (q, Queue.new recallAt)), 0, []⟩
  match (chunksF batchSize base.length (base.drop skipBase)).foldlM (batchStep pad dist bms) start with
  | none => none
  | some st => insertLoop pad dist bms inserted st

/-! ### Range search -/

/-- `distance <= radius` (ground_truth.rs 342), false for a NaN. -/
def within (radius : D) : Option D → Bool
  | none => false
  | some d => decide (d ≤ radius)

/-- One point offered to one query (ground_truth.rs 327-346). -/
def rangeOffer (dist : V → Q → Option D) (radius : D) (bms : Option (List Bitmap)) (base qi : Nat) (q : Q)
    (acc : List Nat) (x : V × Nat) : Option (List Nat) :=
  match allowed bms qi ((base + x.2) % 4294967296) with
  | none => none
  | some false => some acc
  | some true => if within radius (dist x.1 q) then some (acc ++ [(base + x.2) % 4294967296]) else some acc

/-- The closure run for one query on a batch (ground_truth.rs 326-347). -/
def rangeBatch (dist : V → Q → Option D) (radius : D) (bms : Option (List Bitmap)) (base : Nat) (batch : List V)
    (qi : Nat) (s : Q × List Nat) : Option (Q × List Nat) :=
  (batch.zipIdx.foldlM (rangeOffer dist radius bms base qi s.1) s.2).map (fun acc => (s.1, acc))

/-- One batch (ground_truth.rs 312-350): the slots and the number of points so far. -/
def rangeStep (dist : V → Q → Option D) (radius : D) (bms : Option (List Bitmap)) (st : List (Q × List Nat) × Nat)
    (chunk : List V) : Option (List (Q × List Nat) × Nat) :=
  if chunk.isEmpty then some st
  else (forQueries (rangeBatch dist radius bms st.2 chunk) 0 st.1).map fun slots => (slots, st.2 + chunk.length)

/-- `compute_range_ground_truth_from_data` (ground_truth.rs 285-353), without the distances, which are not written. -/
def computeRange (dist : V → Q → Option D) (radius : D) (base : List V) (bms : Option (List Bitmap))
    (queries : List Q) : Option (List (List Nat)) :=
  ((chunksF batchSize base.length base).foldlM (rangeStep dist radius bms) (queries.map (fun q => (q, [])), 0)).map
    (fun st => st.1.map (·.2))

/-! ### Multi-vectors -/

/-- `MultivecAggregationMethod` (ground_truth.rs 356-360). -/
inductive Aggregation
  | averagePairwise
  | minPairwise
  | avgOfMins
deriving DecidableEq

section
variable {K W : Type} [Field K] [LinearOrder K]

/-- The sum over all pairs (ground_truth.rs 742-749). -/
def sumPairs (d : W → W → K) (qs bs : List W) : K :=
  qs.foldl (fun acc q => bs.foldl (fun acc b => acc + d q b) acc) 0

/-- The minimum over the second argument from a starting value (ground_truth.rs 767-772). -/
def minRow (d : W → W → K) (q : W) (bs : List W) (m : K) : K := bs.foldl (fun m b => min m (d q b)) m

/-- `distance` (ground_truth.rs 740-777); `top` is `f32::MAX`.  A quotient by zero is a NaN. -/
def aggregate (top : K) (d : W → W → K) (m : Aggregation) (qs bs : List W) : Option K :=
  match m with
  | .averagePairwise =>
    if qs.length * bs.length = 0 then none else some (sumPairs d qs bs / ((qs.length * bs.length : Nat) : K))
  | .minPairwise => some (qs.foldl (fun m q => minRow d q bs m) top)
  | .avgOfMins =>
    if qs.length = 0 then none
    else some (qs.foldl (fun acc q => acc + minRow d q bs top) 0 / ((qs.length : Nat) : K))

/-- `compute_multivec_ground_truth_from_data` (ground_truth.rs 696-787). -/
def computeMulti (pad : K) (top : K) (d : W → W → K) (m : Aggregation) (recallAt : Nat) (base : List (List W))
    (bms : Option (List Bitmap)) (queries : List (List W)) : Option (List (Queue Nat K)) :=
  (forQueries (offerBatch pad (fun b q => aggregate top d m q b) bms 0 base) 0
    (queries.map (fun q => (q, Queue.new recallAt)))).map (fun s => s.map (·.2))
end

/-! ### Files -/

/-- `while let Some(x) = queue.closest_notvisited()` (ground_truth.rs 540-543); `none`: a panic, or no end within
`fuel` steps. -/
def drainF : Nat → Queue Nat D → Option (List (Nat × D))
  | 0, _ => none
  | fuel + 1, q =>
    match q.pop with
    | none => none
    | some (none, _) => some []
    | some (some x, q') => (drainF fuel q').map (fun xs => x :: xs)

/-- All queues popped in turn (ground_truth.rs 539-544). -/
def drainAll : List (Queue Nat D) → Option (List (Nat × D))
  | [] => some []
  | q :: qs =>
    match drainF (q.size + 1) q with
    | none => none
    | some xs => (drainAll qs).map (fun ys => xs ++ ys)

/-- The bytes of a slice of 32-bit words. -/
def words (xs : List Nat) : List Byte := xs.flatMap (leEncode 4)

/-- `id_buffer.clone_from_slice(...)` and `write_all` (ground_truth.rs 559-561, 565-567): panics unless exactly `n`
words are given. -/
def exactWords (n : Nat) (xs : List Nat) : Option (List Byte) := if n * 4 = xs.length * 4 then some (words xs) else none

/-- The serialized associated data of the ids (ground_truth.rs 547-557): the table is indexed by the id. -/
def assocBytes (ser : A → List Byte) (table : List A) : List Nat → Option (List Byte)
  | [] => some []
  | id :: ids =>
    match table[id]? with
    | none => none
    | some a => (assocBytes ser table ids).map (fun bs => ser a ++ bs)

/-- The id part of the file (ground_truth.rs 546-562). -/
def idPart (ser : A → List Byte) (nq k : Nat) (assoc : Option (List A)) (ids : List Nat) : Option (List Byte) :=
  match assoc with
  | some table => assocBytes ser table ids
  | none => exactWords (nq * k) ids

/-- `write_ground_truth` (ground_truth.rs 523-573): the file; `bits` is `f32::to_bits`. -/
def writeTruth (bits : D → Nat) (ser : A → List Byte) (nq k : Nat) (gt : List (Queue Nat D))
    (assoc : Option (List A)) : Option (BinRes (List Byte)) :=
  match metadataBytes nq k with
  | none => some .err
  | some head =>
    match drainAll gt with
    | none => none
    | some found =>
      match idPart ser nq k assoc (found.map (·.1)), exactWords (nq * k) (found.map (fun x => bits x.2)) with
      | some a, some b => some (.ok (head ++ a ++ b))
      | _, _ => none

/-- `queue_sizes.iter().sum::<u32>()` (ground_truth.rs 490), with a panic on overflow (debug build). -/
def sumU32 : List Nat → Option Nat
  | [] => some 0
  | x :: xs =>
    match sumU32 xs with
    | none => none
    | some t => if x + t < 4294967296 then some (x + t) else none

/-- `write_range_search_ground_truth` (ground_truth.rs 478-518): the lists of ids of all queries. -/
def writeRange (nq : Nat) (gt : List (List Nat)) : Option (BinRes (List Byte)) :=
  match sumU32 (gt.map (fun l => l.length % 4294967296)) with
  | none => none
  | some total =>
    match metadataBytes nq total with
    | none => some .err
    | some head =>
      match exactWords total gt.flatten with
      | none => none
      | some ids => some (.ok (head ++ words (gt.map (fun l => l.length % 4294967296)) ++ ids))

/-- `cast_slice::<u8, u32>` of `n` words. -/
def readWords (n : Nat) (bs : List Byte) : List Nat := (cutRows 4 n bs).map leDecode

/-- `TruthSet`; distances as bits. -/
structure TruthSet where
  ids : List Nat
  dists : Option (List Nat)
  npts : Nat
  dim : Nat
deriving DecidableEq

/-- `load_truthset` (search_index_utils.rs 297-352); `none` is the overflow of the expected size. -/
def loadTruth (file : List Byte) : Option (BinRes TruthSet) :=
  match readMetadata file with
  | none => some .err
  | some (n, d) =>
    if 2 ^ 64 ≤ 2 * n * d * 4 + 8 then none
    else if file.length = 2 * n * d * 4 + 8 then
      match bytesAt file 8 (n * d * 4), bytesAt file (8 + n * d * 4) (n * d * 4) with
      | some a, some b => some (.ok ⟨readWords (n * d) a, some (readWords (n * d) b), n, d⟩)
      | _, _ => some .err
    else if file.length = n * d * 4 + 8 then
      match bytesAt file 8 (n * d * 4) with
      | some a => some (.ok ⟨readWords (n * d) a, none, n, d⟩)
      | none => some .err
    else some .err

/-- The loop over the counts (search_index_utils.rs 378-384). -/
def readLists (file : List Byte) : Nat → List Nat → BinRes (List (List Nat))
  | _, [] => .ok []
  | pos, c :: cs =>
    match bytesAt file pos (c * 4) with
    | none => .err
    | some bs =>
      match readLists file (pos + c * 4) cs with
      | .err => .err
      | .ok rest => .ok (readWords c bs :: rest)

/-- `load_range_truthset` (search_index_utils.rs 358-392): the lists of ids. -/
def loadRange (file : List Byte) : BinRes (List (List Nat)) :=
  match readMetadata file with
  | none => .err
  | some (n, _) =>
    match bytesAt file 8 (n * 4) with
    | none => .err
    | some bs => readLists file (8 + n * 4) (readWords n bs)

/-- The bitmaps made from a filter file (ground_truth.rs 84-115 with `load_vector_filters`, search_index_utils.rs
395-408): one set of ids per query. -/
def bitmapsOf (nq : Nat) (file : List Byte) : BinRes (List Bitmap) :=
  match loadRange file with
  | .err => .err
  | .ok ls => if ls.length = nq then .ok ls else .err

/-- The end of `compute_ground_truth_from_datafiles` (ground_truth.rs 183-224): a failed assertion for no queries;
with a filter the range format is used, otherwise ids (or associated data) and distances. -/
def truthFile (pad : D) (bits : D → Nat) (ser : A → List Byte) (dist : V → Q → Option D) (recallAt : Nat)
    (base : List (V × A)) (inserted : List V) (skipBase : Nat) (bms : Option (List Bitmap)) (hasAssoc : Bool)
    (queries : List Q) : Option (BinRes (List Byte)) :=
  match computeTruth pad dist recallAt base inserted skipBase bms queries with
  | none => none
  | some (gt, table) =>
    if gt.length = 0 then none
    else if bms.isSome then writeRange queries.length (gt.map (fun q => q.iter.map (·.1)))
    else writeTruth bits ser queries.length recallAt gt (if hasAssoc then some table else none)

end Verif.Tools
