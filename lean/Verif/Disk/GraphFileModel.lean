import Verif.Disk.HeaderModel
import Verif.Disk.CachedSpec

/-!
# Model of the graph file

`save_graph` and `load_graph` (diskann-providers/src/storage/bin.rs), the in-memory neighbour provider's use of them
(diskann-providers/src/model/graph/provider/async_/simple_neighbor_provider.rs) and `DiskAdaptor`, the view of an
in-memory graph that is saved for the disk index.

A file is its bytes. Writing goes through the operations `WOp` of `CachedModel` with the meaning `specWrites` gives
them (`reset` is `seek(Start(0))`); `BufWriter` keeps the order of the bytes and `seek` flushes it. A save that is cut
short (crash, error, full disk) has put down a prefix of the bytes. Seeking past the end of a file is allowed and the
next read fails. `usize` is 64 bits.
-/

namespace Verif.Disk

/-- What `GetAdjacencyList` shows of a graph (bin.rs:86–113): the lists of `0..total`, the number of additional
points and the configured maximum degree, if any. -/
structure GraphSrc where
  lists : List (List Nat)
  additional : Nat
  maxDegree : Option Nat

/-- One adjacency list (bin.rs:351–363). -/
def listOps (l : List Nat) : List WOp := .write (leEncode 4 l.length) :: l.map fun n => .write (leEncode 4 n)

/-- `observed_max_degree` (bin.rs:365). -/
def observedDegree (lists : List (List Nat)) : Nat := lists.foldl (fun m l => max m l.length) 0

/-- `index_size` (bin.rs:338, 366). -/
def indexSize (lists : List (List Nat)) : Nat := lists.foldl (fun s l => s + 4 * (1 + l.length)) 24

/-- The writes of `save_graph` before it seeks back (bin.rs:338–367). -/
def bodyOps (g : GraphSrc) (start : Nat) : List WOp :=
  [.write (leEncode 8 24), .write (leEncode 4 0), .write (leEncode 4 start), .write (leEncode 8 g.additional)] ++
    g.lists.flatMap listOps

/-- The final header update (bin.rs:369–376). -/
def headerOps (g : GraphSrc) : List WOp :=
  [.reset, .write (leEncode 8 (indexSize g.lists)),
    .write (leEncode 4 (g.maxDegree.getD (observedDegree g.lists))), .flush]

/-- `save_graph` (bin.rs:325–378). -/
def saveOps (g : GraphSrc) (start : Nat) : List WOp := bodyOps g start ++ headerOps g

/-- The file `save_graph` leaves. -/
def saveGraph (g : GraphSrc) (start : Nat) : List Byte := (specWrites ([], 0) (saveOps g start)).1

/-- Only the first `n` bytes get written. -/
def truncOps : Nat → List WOp → List WOp
  | _, [] => []
  | n, .write bs :: ops => if n < bs.length then [.write (bs.take n)] else .write bs :: truncOps (n - bs.length) ops
  | n, op :: ops => op :: truncOps n ops

/-- The file a save leaves that is cut short after `n` bytes. -/
def interrupted (g : GraphSrc) (start n : Nat) : List Byte := (specWrites ([], 0) (truncOps n (saveOps g start))).1

/-- `read_uN::<LittleEndian>` at a position; `none` is `UnexpectedEof`. -/
def readAt (k : Nat) (file : List Byte) (pos : Nat) : Option Nat :=
  if pos + k ≤ file.length then some (leDecode ((file.drop pos).take k)) else none

/-- Result of a load. -/
inductive LoadRes (α : Type) where
  | panic
  | err
  | ok (a : α)
deriving DecidableEq

/-- The counting pass (bin.rs:267–276): final position and number of points. -/
def scanGraph (file : List Byte) (fileSize pos n : Nat) : Option (Nat × Nat) :=
  if pos < fileSize then
    match readAt 4 file pos with
    | none => none
    | some k => scanGraph file fileSize (pos + 4 + k * 4) (n + 1)
  else some (pos, n)
termination_by fileSize - pos

/-- `read_u32_into` (bin.rs:301). -/
def decodeU32s : Nat → List Byte → List Nat
  | 0, _ => []
  | k + 1, bs => leDecode (bs.take 4) :: decodeU32s k (bs.drop 4)

/-- The reading pass (bin.rs:294–307). The buffer has `max_degree` entries; slicing it longer panics. -/
def readLists (file : List Byte) (fileSize maxDegree pos : Nat) (acc : List (List Nat)) :
    LoadRes (List (List Nat)) :=
  if pos < fileSize then
    match readAt 4 file pos with
    | none => .err
    | some k =>
      if maxDegree < k then .panic
      else if file.length < pos + 4 + k * 4 then .err
      else readLists file fileSize maxDegree (pos + 4 * (1 + k)) (acc ++ [decodeU32s k (file.drop (pos + 4))])
  else .ok acc
termination_by fileSize - pos

/-- What `load_graph` finds in a file. -/
structure GraphFile where
  lists : List (List Nat)
  maxDegree : Nat
  start : Nat
  numStart : Nat
deriving DecidableEq

/-- `load_graph` (bin.rs:240–317). `create num_points max_degree num_start_points = false`: the callback returns an
error. -/
def loadGraph (create : Nat → Nat → Nat → Bool) (file : List Byte) : LoadRes GraphFile :=
  match readAt 8 file 0, readAt 4 file 8, readAt 4 file 12, readAt 8 file 16 with
  | some fileSize, some maxDegree, some start, some numStart =>
    match scanGraph file fileSize 24 0 with
    | none => .err
    | some (_, numPoints) =>
      if create numPoints maxDegree numStart then
        match readLists file fileSize maxDegree 24 [] with
        | .panic => .panic
        | .err => .err
        | .ok lists => .ok ⟨lists, maxDegree, start, numStart⟩
      else .err
  | _, _, _, _ => .err

/-- The callback of `SimpleNeighborProviderAsync::load_direct` (simple_neighbor_provider.rs:149–173). -/
def providerCreate (numPoints _maxDegree numStart : Nat) : Bool := decide (numStart ≤ numPoints)

/-- An in-memory graph as `save_graph` sees it (simple_neighbor_provider.rs:264–287): all lists, start points last,
and the capacity of a list. -/
def providerSrc (lists : List (List Nat)) (numStart capacity : Nat) : GraphSrc := ⟨lists, numStart, some capacity⟩

/-- The number of lists of an in-memory index for `maxPoints` points and `frozen` start points (inmem/provider.rs:313–318,
simple_neighbor_provider.rs:30–48): both the start points and one more slot are added; the provider takes the last slot for its only start
point. -/
def providerSlots (maxPoints frozen : Nat) : Nat := maxPoints + frozen + 1

/-- `DiskAdaptor` (simple_neighbor_provider.rs:289–347): the last `numStart` lists are left out, and the id `s` of the
start point is replaced by `m` in the others. -/
def diskLists (lists : List (List Nat)) (numStart s m : Nat) : List (List Nat) :=
  (lists.take (lists.length - numStart)).map fun l => l.map fun i => if i = s then m else i

/-- The graph saved for the disk index (simple_neighbor_provider.rs:215–236). -/
def diskSrc (lists : List (List Nat)) (numStart s m : Nat) : GraphSrc := ⟨diskLists lists numStart s m, 0, none⟩

end Verif.Disk
