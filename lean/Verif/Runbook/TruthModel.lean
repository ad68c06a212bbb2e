import Verif.Runbook.ManagedModel
import Verif.Tools.TruthModel

/-! # Model of the tool that computes the ground truth of a runbook

`diskann-tools/src/bin/compute_streaming_groundtruth.rs`. -/

namespace Verif.Runbook

open Verif.Queue Verif.Tools Verif.Disk

/-- `external_to_internal`, compute_streaming_groundtruth.rs 230: external and internal ids, the former distinct. -/
abbrev IdMap := List (Nat × Nat)

/-- `HashMap::remove`. -/
def IdMap.erase (m : IdMap) (e : Nat) : IdMap := m.filter fun x => x.1 != e

/-- `HashMap::insert`. -/
def IdMap.set (m : IdMap) (e i : Nat) : IdMap := m.erase e ++ [(e, i)]

/-- `as u32`. -/
def low32 (n : Nat) : Nat := n % 4294967296

/-- The body of both insertion loops, compute_streaming_groundtruth.rs 296-301 and 317-322. -/
def IdMap.put (nBase : Nat) (m : IdMap) (ie : Nat × Nat) : IdMap :=
  if ie.1 < nBase then m.set (low32 ie.2) ie.1 else m

/-- `GroundtruthStream::insert`, compute_streaming_groundtruth.rs 290-303: the offsets are also the external ids. -/
def truthInsert (nBase : Nat) (m : IdMap) (offsets : Rng) : IdMap :=
  ((tagsOf offsets).zip (tagsOf offsets)).foldl (IdMap.put nBase) m

/-- Both removal loops, compute_streaming_groundtruth.rs 309-311 and 331-333. -/
def truthDelete (m : IdMap) (ids : Rng) : IdMap := (tagsOf ids).foldl (fun m e => m.erase (low32 e)) m

/-- `GroundtruthStream::replace`, compute_streaming_groundtruth.rs 305-325. -/
def truthReplace (nBase : Nat) (m : IdMap) (offsets ids : Rng) : IdMap :=
  ((tagsOf offsets).zip (tagsOf ids)).foldl (IdMap.put nBase) (truthDelete m ids)

variable {V Q D : Type} [LinearOrder D]

/-- The distance of an entry to a query, compute_streaming_groundtruth.rs 64-75; `none`: out of bounds. -/
def entryDistance (data : List V) (dist : V → Q → Option D) (q : Q) (x : Nat × Nat) : Option (Nat × Option D) :=
  (data[x.2]?).map fun v => (x.1, dist v q)

/-- The queue of a query, compute_streaming_groundtruth.rs 87-97. The inner `none` is an insertion that panics. -/
def queryQueue (pad : D) (data : List V) (dist : V → Q → Option D) (k : Nat) (entries : List (Nat × Nat)) (q : Q) :
    Out (Queue Nat D) :=
  match collect (entryDistance data dist q) entries with
  | none => .err
  | some xs =>
    match feed pad (Queue.new k) xs with
    | none => .panic
    | some q => .ok q

/-- `compute_groundtruth_results`, compute_streaming_groundtruth.rs 78-102: the queries in parallel, the first error counts. -/
def queryQueues (pad : D) (data : List V) (dist : V → Q → Option D) (k : Nat) (entries : List (Nat × Nat)) :
    List Q → Out (List (Queue Nat D))
  | [] => .ok []
  | q :: qs =>
    match queryQueue pad data dist k entries q, queryQueues pad data dist k entries qs with
    | .ok a, .ok as => .ok (a :: as)
    | .panic, _ => .panic
    | _, .panic => .panic
    | _, _ => .err

/-- The file written by a search. -/
def truthBytes (bits : D → Nat) (nq k : Nat) (queues : List (Queue Nat D)) : Out (List Byte) :=
  match writeTruth (A := Unit) bits (fun _ => []) nq k queues none with
  | none => .panic
  | some .err => .err
  | some (.ok b) => .ok b

/-- `GroundtruthStream::search`, compute_streaming_groundtruth.rs 246-288. The order of the entries is a parameter; the
output is the path and contents of the file. -/
def truthSearch (pad : D) (bits : D → Nat) (data : List V) (dist : V → Q → Option D) (queries : List Q) (k : Nat)
    (order : IdMap → IdMap) (m : IdMap) (path : List Char) : Out (IdMap × Option (List Char × List Byte)) :=
  if m.length < k then .err
  else (queryQueues pad data dist k (order m) queries).bind fun queues =>
    (truthBytes bits queries.length k queues).bind fun file => .ok (m, some (path, file))

/-- `impl Stream for GroundtruthStream`, compute_streaming_groundtruth.rs 239-347. -/
def truthStream (pad : D) (bits : D → Nat) (data : List V) (dist : V → Q → Option D) (queries : List Q) (k : Nat)
    (order : IdMap → IdMap) : Stream IdMap (Option (List Char × List Byte)) where
  needs _ := false
  maintain m := .ok (m, none)
  search := truthSearch pad bits data dist queries k order
  insert m offsets _ := .ok (truthInsert data.length m offsets, none)
  replace m offsets ids := .ok (truthReplace data.length m offsets ids, none)
  delete m ids := .ok (truthDelete m ids, none)

end Verif.Runbook
