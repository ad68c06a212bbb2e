import Verif.Queue.Spec
import Verif.Search.BufferModel
/-!
# Model of flat (brute force) search, `diskann/src/flat/index.rs`

The visitor and the query computer belong to the caller (`SearchStrategy`, flat/strategy.rs): a scan is the list of
pairs it hands to the callback and the way it ends.  A NaN distance is `none`.  A panic is the outer `none`.
-/
namespace Verif.Search.Flat

open Verif.Queue Verif.Search

variable {I D : Type} [DecidableEq I] [LinearOrder D]

/-- How `distances_unordered` returns (strategy.rs 44-58): with `Ok`, a transient error or a fatal error. -/
inductive ScanEnd
  | finished
  | transient
  | fatal
deriving DecidableEq

/-- One scan: the calls of the callback, in order, and the return value. -/
structure Scan (I D : Type) where
  calls : List (I × Option D)
  ending : ScanEnd

/-- What a strategy offers for one query: the visitor (`create_visitor`), the computer (`build_query_computer`), each
`false` when it fails, and the scan. -/
structure Strategy (I D : Type) where
  visitorOk : Bool
  computerOk : Bool
  scan : Scan I D

/-- `SearchStats` (index.rs 22-29). -/
structure Stats where
  cmps : Nat
  resultCount : Nat
deriving DecidableEq

/-- The steps that can fail. -/
inductive FlatErr
  | visitor
  | computer
  | scan
  | postProcess
deriving DecidableEq

/-- The callback (index.rs 82-85): `cmps += 1` on a `u32` panics on overflow (debug build), then `queue.insert`. -/
def onPair (pad : D) (s : Nat × Queue I D) (x : I × Option D) : Option (Nat × Queue I D) :=
  if s.1 + 1 < 4294967296 then (s.2.insert pad x.1 x.2).map (fun q => (s.1 + 1, q)) else none

/-- The scan with the callback (index.rs 81-87). -/
def runScan (pad : D) (k : Nat) (calls : List (I × Option D)) : Option (Nat × Queue I D) :=
  calls.foldlM (onPair pad) (0, Queue.new k)

/-- `escalate` (index.rs 87): every error of the scan, transient or not, ends the search. -/
def scanOk : ScanEnd → Bool
  | .finished => true
  | .transient => false
  | .fatal => false

/-- A post-processor (glue.rs 649-667): it sees the candidates and the buffer and returns the number of results and the
buffer, or an error; in either case it may have written to the buffer. -/
abbrev Post (I D : Type) := List (I × D) → Buf I D → Bool × Nat × Buf I D

/-- `CopyIds` (glue.rs 674-693). -/
def copyIds : Post I D := fun cands out => (true, (out.extend cands).1, (out.extend cands).2)

/-- A post-processor that keeps the candidates that pass a test and forwards them. -/
def filterIds (keep : I → Bool) : Post I D := fun cands out => copyIds (cands.filter (fun c => keep c.1)) out

/-- The end of `knn_search` (index.rs 89-94). -/
def finish (k : Nat) (post : Post I D) (out : Buf I D) (s : Nat × Queue I D) : Except FlatErr Stats × Buf I D :=
  match post (s.2.iter.take k) out with
  | (true, n, out') => (.ok ⟨s.1, n % 4294967296⟩, out')
  | (false, _, out') => (.error .postProcess, out')

/-- `FlatIndex::knn_search` (index.rs 58-96); `k` is the value of the `NonZeroUsize`. -/
def knnSearch (pad : D) (k : Nat) (st : Strategy I D) (post : Post I D) (out : Buf I D) :
    Option (Except FlatErr Stats × Buf I D) :=
  if st.visitorOk = false then some (.error .visitor, out)
  else if st.computerOk = false then some (.error .computer, out)
  else
    match runScan pad k st.scan.calls with
    | none => none
    | some s => if scanOk st.scan.ending then some (finish k post out s) else some (.error .scan, out)

end Verif.Search.Flat
