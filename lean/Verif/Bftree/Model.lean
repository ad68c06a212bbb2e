import Verif.Graph.AdjModel

/-!
# Model of the bf-tree neighbour store (`diskann-bftree/src/neighbors.rs`, `locks.rs`, `lib.rs`)

Ids are `w`-byte little-endian cells (`w = 4` for `u32`, `w = 8` for `u64`), a vertex record is the
byte string of `maxDegree + 1` cells. The tree itself (crate `bf_tree`) is outside the repository: it
is modelled as a map from key bytes to a slot, where a deleted key either leaves a tombstone or is
forgotten, and an insert is either accepted (`ins = true`) or refused without effect.
-/

namespace Verif.Bftree

abbrev Bytes := List Nat

/-- Outcome of a call: a value, a reported error, or a panic. -/
inductive Out (α : Type) where
  | ok (a : α)
  | err
  | panic
deriving DecidableEq

/-- `bytemuck::bytes_of` on a `w`-byte little-endian integer. -/
def leN : Nat → Nat → Bytes
  | 0, _ => []
  | w + 1, n => n % 256 :: leN w (n / 256)

/-- The integer held by a little-endian cell. -/
def ofLeN : Bytes → Nat
  | [] => 0
  | b :: bs => b + 256 * ofLeN bs

/-- `cast_slice::<I, u8>` (neighbors.rs:205). -/
def castBytes (w : Nat) (cells : List Nat) : Bytes := cells.flatMap (leN w)

/-- `cast_slice_mut::<I, u8>` seen from the cell side (neighbors.rs:117): `n` cells of `w` bytes. -/
def castCells (w : Nat) : Nat → Bytes → List Nat
  | 0, _ => []
  | n + 1, bs => ofLeN (bs.take w) :: castCells w n (bs.drop w)

/-- `len_to_cell` (neighbors.rs:363–368): the `u32` count in the low four bytes, zeros above. -/
def lenToCell (len : Nat) : Nat := len % 2 ^ 32

/-- `cell_to_len` (neighbors.rs:371–378): the `u32` in the low four bytes. -/
def cellToLen (cell : Nat) : Nat := cell % 2 ^ 32

/-- What the tree holds under a key (`bf_tree::LeafReadResult`, external crate). -/
inductive Slot where
  | absent
  | tomb
  | val (b : Bytes)
deriving DecidableEq

/-- The bf-tree (external crate): a map from key bytes. -/
abbrev Tree := Bytes → Slot

/-- Overwriting one key of the map. -/
def Tree.put (t : Tree) (k : Bytes) (s : Slot) : Tree := fun k' => if k' = k then s else t k'

/-- `Vec::resize(capacity, default)` inside `AdjacencyList::resize` (adjacencylist.rs:162–168). -/
def resizeCells (l : List Nat) (n : Nat) : List Nat := l.take n ++ List.replicate (n - l.length) 0

/-- Inspecting a record that was read into the resized list (neighbors.rs:120–145): `size` bytes were
copied over the front of the list's `dim` cells. -/
def decodeRecord (w dim : Nat) (cells : List Nat) (size : Nat) : Out (List Nat) :=
  if size = 0 then .ok Graph.resizeAbandon
  else if size ≠ dim * w then .err
  else
    match cells[dim - 1]? with
    | none => .panic
    | some c =>
      if cellToLen c > (dim - 1) % 2 ^ 32 then .err
      else .ok (Graph.resizeFinish cells (cellToLen c))

/-- `NeighborProvider::get_neighbors_unlocked` (neighbors.rs:108–170); `prior` is what the caller's
list held. `BfTree::read` copies the value over the front of the buffer; a value longer than the buffer
is out of contract of the external crate and modelled as a panic. -/
def getUnlocked (w dim : Nat) (t : Tree) (id : Nat) (prior : List Nat) : Out (List Nat) :=
  match t (leN w id) with
  | .absent => .ok Graph.resizeAbandon
  | .tomb => .err
  | .val b =>
    let buf := castBytes w (resizeCells prior dim)
    if buf.length < b.length then .panic
    else decodeRecord w dim (castCells w dim (b ++ buf.drop b.length)) b.length

/-- `NeighborProvider::get_neighbors` (neighbors.rs:94–103): clears the list first. -/
def getNeighbors (w dim : Nat) (t : Tree) (id : Nat) (_prior : List Nat) : Out (List Nat) :=
  getUnlocked w dim t id []

/-- `bftree_insert` (lib.rs:196–201); `ins` says whether the external tree accepts the pair. -/
def bftreeInsert (t : Tree) (k v : Bytes) (ins : Bool) : Out Unit × Tree :=
  if ins then (.ok (), t.put k (.val v)) else (.err, t)

/-- `NeighborProvider::set_neighbors_internal` (neighbors.rs:192–215). Returns the outcome, the tree
and the scratch buffer as it is left behind. -/
def setInternal (w dim : Nat) (t : Tree) (id : Nat) (nbrs buf : List Nat) (ins : Bool) :
    Out Unit × Tree × List Nat :=
  if buf.length < dim then (.err, t, buf)
  else if buf.length < nbrs.length ∨ buf.length ≤ dim - 1 then (.panic, t, buf)
  else
    let buf1 := nbrs ++ buf.drop nbrs.length
    let buf2 := buf1.set (dim - 1) (lenToCell nbrs.length)
    let r := bftreeInsert t (leN w id) (castBytes w (buf2.take dim)) ins
    (r.1, r.2, buf2)

/-- `NeighborProvider::set_neighbors` (neighbors.rs:229–237). -/
def setNeighbors (w dim : Nat) (t : Tree) (id : Nat) (nbrs buf : List Nat) (ins : Bool) :
    Out Unit × Tree × List Nat :=
  if nbrs.length > dim - 1 then (.err, t, buf) else setInternal w dim t id nbrs buf ins

/-- The loop of `append_vector` (neighbors.rs:256–262): push until the list is full. -/
def appendLoop (dim : Nat) : List Nat → Bool → List Nat → List Nat × Bool
  | l, added, [] => (l, added)
  | l, added, i :: is =>
    if l.length = dim - 1 then (l, added)
    else
      let r := Graph.push l i
      appendLoop dim r.1 (added || r.2) is

/-- Second half of `append_vector` (neighbors.rs:255–269), after the current list has been read. -/
def appendWrite (w dim : Nat) (t : Tree) (id : Nat) (cur new buf : List Nat) (ins : Bool) :
    Out Unit × Tree × List Nat :=
  let r := appendLoop dim cur false new
  if r.2 then setInternal w dim t id r.1 buf ins else (.ok (), t, buf)

/-- `NeighborProvider::append_vector` (neighbors.rs:248–273). -/
def appendVector (w dim : Nat) (t : Tree) (id : Nat) (new buf : List Nat) (ins : Bool) :
    Out Unit × Tree × List Nat :=
  match getUnlocked w dim t id [] with
  | .ok cur => appendWrite w dim t id cur new buf ins
  | .err => (.err, t, buf)
  | .panic => (.panic, t, buf)

/-- `NeighborProvider::delete_vector` (neighbors.rs:275–279); `tomb` says whether the external tree
remembers the deletion. -/
def deleteVector (w : Nat) (t : Tree) (id : Nat) (tomb : Bool) : Tree :=
  t.put (leN w id) (if tomb then .tomb else .absent)

/-- The external tree forgetting a tombstone while it consolidates pages. -/
def compact (w : Nat) (t : Tree) (id : Nat) : Tree :=
  if t (leN w id) = .tomb then t.put (leN w id) .absent else t

/-- A call on the store with the scratch buffer handed to it and the tree's answer to the insert. -/
inductive Op where
  | set (id : Nat) (nbrs buf : List Nat) (ins : Bool)
  | append (id : Nat) (new buf : List Nat) (ins : Bool)
  | delete (id : Nat) (tomb : Bool)
  | compact (id : Nat)

/-- Effect of a call (model functions). -/
def Op.run (w dim : Nat) (t : Tree) : Op → Out Unit × Tree
  | .set id nbrs buf ins => let r := setNeighbors w dim t id nbrs buf ins; (r.1, r.2.1)
  | .append id new buf ins => let r := appendVector w dim t id new buf ins; (r.1, r.2.1)
  | .delete id tomb => (.ok (), deleteVector w t id tomb)
  | .compact id => (.ok (), Bftree.compact w t id)

/-- A history of calls: the outcomes and the final tree. -/
def runOps (w dim : Nat) (t : Tree) : List Op → List (Out Unit) × Tree
  | [] => ([], t)
  | o :: os =>
    let r := o.run w dim t
    let s := runOps w dim r.2 os
    (r.1 :: s.1, s.2)

/-! ## Concurrent accessors (neighbors.rs:291–354, locks.rs) -/

/-- `StripedLocks::stripe_index` (locks.rs:46–48) with `count = 2 ^ bits` stripes
(`hash_shift = 64 - bits`). -/
def stripeIndex (bits id : Nat) : Nat :=
  (id * 0x9E3779B97F4A7C15) % 2 ^ 64 / 2 ^ (64 - bits)

/-- A write through an accessor: replace (`write_neighbors`, neighbors.rs:303–306) or append
(`write_append`, neighbors.rs:307–310). -/
inductive WOp where
  | set (id : Nat) (nbrs : List Nat)
  | append (id : Nat) (new : List Nat)
deriving DecidableEq

def WOp.id : WOp → Nat
  | .set id _ => id
  | .append id _ => id

/-- Where a thread stands inside the current call. -/
inductive Phase where
  /-- not holding a lock -/
  | idle
  /-- holding the stripe of the current call's vertex, nothing read yet -/
  | locked
  /-- append: the current list has been read -/
  | haveList (cur : List Nat)
  /-- the call's effect is over, the guard is about to drop -/
  | done
deriving DecidableEq

/-- A thread with its own accessor: the calls it still has to make (the head is the current one), its
phase, and the accessor's scratch buffer. -/
structure Thread where
  prog : List WOp
  phase : Phase
  buf : List Nat

/-- Shared state. `owner` is the holder of each stripe mutex; `log` is a ghost record of the calls in
the order in which they took effect, with the thread that made them and the tree's answer. -/
structure Sys where
  tree : Tree
  owner : Nat → Option Nat
  threads : Nat → Thread
  log : List (Nat × WOp × Bool)

def Sys.setThread (s : Sys) (i : Nat) (th : Thread) : Sys :=
  { s with threads := fun j => if j = i then th else s.threads j }

def Sys.setOwner (s : Sys) (k : Nat) (o : Option Nat) : Sys :=
  { s with owner := fun j => if j = k then o else s.owner j }

/-- Recording that the current call of thread `i` took effect. -/
def Sys.commit (s : Sys) (i : Nat) (o : WOp) (ins : Bool) (t : Tree) (th : Thread) : Sys :=
  ({ s with tree := t, log := s.log ++ [(i, o, ins)] } : Sys).setThread i th

/-- One step of thread `i`: taking the stripe lock, one tree access, or dropping the guard. `ins` is
the tree's answer should the step insert. `none` = the thread is blocked or finished. -/
def Sys.step (w dim bits : Nat) (s : Sys) (i : Nat) (ins : Bool) : Option Sys :=
  let th := s.threads i
  match th.prog with
  | [] => none
  | o :: rest =>
    let k := stripeIndex bits o.id
    match th.phase with
    | .idle =>
      if s.owner k = none then
        some ((s.setOwner k (some i)).setThread i { th with phase := .locked })
      else none
    | .locked =>
      match o with
      | .set id nbrs =>
        let r := setNeighbors w dim s.tree id nbrs th.buf ins
        some (s.commit i o ins r.2.1 { th with phase := .done, buf := r.2.2 })
      | .append id new =>
        match getUnlocked w dim s.tree id [] with
        | .ok cur => some (s.setThread i { th with phase := .haveList cur })
        | _ => some (s.commit i o ins s.tree { th with phase := .done })
    | .haveList cur =>
      match o with
      | .set _ _ => none
      | .append id new =>
        let r := appendWrite w dim s.tree id cur new th.buf ins
        some (s.commit i o ins r.2.1 { th with phase := .done, buf := r.2.2 })
    | .done =>
      some ((s.setOwner k none).setThread i { th with phase := .idle, prog := rest })

/-- A schedule: which thread moves, and the tree's answer; moves of blocked threads are skipped. -/
def Sys.run (w dim bits : Nat) : Sys → List (Nat × Bool) → Sys
  | s, [] => s
  | s, (i, ins) :: sch => Sys.run w dim bits ((s.step w dim bits i ins).getD s) sch

/-- The starting state: every thread idle with a fresh scratch buffer of `dim` zero cells
(`NeighborProvider::scratch`, neighbors.rs:281–287). -/
def Sys.init (dim : Nat) (t : Tree) (progs : Nat → List WOp) : Sys where
  tree := t
  owner := fun _ => none
  threads := fun i => { prog := progs i, phase := .idle, buf := List.replicate dim 0 }
  log := []

end Verif.Bftree
