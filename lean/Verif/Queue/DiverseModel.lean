import Verif.Queue.Model

/-!
# Model of `diskann/src/neighbor/diverse_priority_queue.rs` (`DiverseNeighborQueue`)

The map from attribute values to local queues is a list of the keys present and a total function that gives an absent
key the queue `entry().or_insert_with` would create. The attribute provider is a function. A Rust panic is `none`.
-/

namespace Verif.Queue

variable {I A D : Type} [DecidableEq I] [DecidableEq A] [LinearOrder D]

/-- `struct DiverseNeighborQueue` (diverse_priority_queue.rs:66–81); `dl` is `diverse_results_l`, `dk` is
`diverse_results_k`, `attr` is the attribute provider. -/
structure DQueue (I A D : Type) where
  global : Queue (I × A) D
  keys : List A
  loc : A → Queue I D
  attr : I → Option A
  dl : Nat
  dk : Nat

/-- `new` (diverse_priority_queue.rs:90–105). `k` is a `NonZeroUsize`; the product is not allowed to overflow. -/
def DQueue.new (l k dk : Nat) (attr : I → Option A) : DQueue I A D :=
  { global := Queue.new l, keys := [], loc := fun _ => Queue.new (dk * l / k), attr, dl := dk * l / k, dk }

/-- `NeighborPriorityQueue::is_full` (queue.rs:396–398). -/
def Queue.isFull (q : Queue I D) : Bool := !q.auto && q.size == q.capacity

/-- `NeighborPriorityQueue::get` (queue.rs:291–294); `none` is the failed assertion. -/
def Queue.get (q : Queue I D) (i : Nat) : Option (I × D) := q.entries[i]?.map fun e => (e.id, e.dist)

/-- `usize` subtraction; `none` is the underflow (in a release build it wraps and the `get` that uses it panics). -/
def checkedSub (a b : Nat) : Option Nat := if b ≤ a then some (a - b) else none

def DQueue.setLoc (q : DQueue I A D) (a : A) (x : Queue I D) : DQueue I A D :=
  { q with loc := fun b => if b = a then x else q.loc b }

/-- `insert` (diverse_priority_queue.rs:147–216). A NaN distance (`none`) fails every comparison. -/
def DQueue.insert (pad : D) (q : DQueue I A D) (id : I) (dist : Option D) : Option (DQueue I A D) :=
  match q.attr id with
  | none => some q
  | some a =>
    let q := { q with keys := if a ∈ q.keys then q.keys else a :: q.keys }
    let localFull := (q.loc a).isFull
    let globalFull := q.global.isFull
    if !localFull && !globalFull then do
      -- case 1
      let lq ← (q.loc a).insert pad id dist
      let gq ← q.global.insert pad (id, a) dist
      some { (q.setLoc a lq) with global := gq }
    else if localFull then do
      -- case 2
      let i ← checkedSub q.dl 1
      let worst ← (q.loc a).get i
      if (match dist with | some d => decide (d < worst.2) | none => false) then do
        let gq := (q.global.remove pad (worst.1, a) worst.2).2
        let lq ← (q.loc a).insert pad id dist
        let gq ← gq.insert pad (id, a) dist
        some { (q.setLoc a lq) with global := gq }
      else some q
    else do
      -- case 3
      let i ← checkedSub q.global.searchL 1
      let worst ← q.global.get i
      if (match dist with | some d => decide (d < worst.2) | none => false) then do
        let lq ← (q.loc a).insert pad id dist
        let gq ← q.global.insert pad (id, a) dist
        let q := { (q.setLoc a lq) with global := gq }
        let b := worst.1.2
        if b ∈ q.keys then some (q.setLoc b ((q.loc b).remove pad worst.1.1 worst.2).2) else some q
      else some q

/-- `closest_notvisited` (diverse_priority_queue.rs:226–232). -/
def DQueue.pop (q : DQueue I A D) : Option (Option (I × D) × DQueue I A D) :=
  q.global.pop.map fun (r, g) => (r.map fun x => (x.1.1, x.2), { q with global := g })

/-- `clear` (diverse_priority_queue.rs:250–253); a cleared map has no keys. -/
def DQueue.clear (q : DQueue I A D) : DQueue I A D :=
  { q with global := q.global.clear, keys := [], loc := fun _ => Queue.new q.dl }

/-- `post_process` (diverse_priority_queue.rs:113–139): the ids beyond the first `dk` of each local queue are collected,
the local queues truncated, and those ids dropped from the global queue. -/
def DQueue.postProcess (q : DQueue I A D) : DQueue I A D :=
  let removed := q.keys.flatMap fun a =>
    if (q.loc a).size > q.dk then ((q.loc a).iter.drop q.dk).map (·.1) else []
  let q := { q with loc := fun a =>
    if a ∈ q.keys ∧ (q.loc a).size > q.dk then (q.loc a).truncate q.dk else q.loc a }
  if removed.isEmpty then q
  else { q with global := q.global.retain fun x _ => !(removed.contains x.1) }

/-- `iter` (diverse_priority_queue.rs:259–262) through `get` (218–224). -/
def DQueue.iter (q : DQueue I A D) : List (I × D) := q.global.iter.map fun x => (x.1.1, x.2)

end Verif.Queue
