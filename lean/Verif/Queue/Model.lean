import Mathlib.Order.Defs.LinearOrder
import Mathlib.Data.List.Sort

/-!
# Model of `diskann/src/neighbor/queue.rs` (`NeighborPriorityQueue`)

Distances are drawn from an arbitrary linear order `D` (the non-NaN `f32` values; `-0.0` and `0.0`
compare equal in Rust and are one value here); a NaN distance is `none`. The parallel vectors
`id_visiteds` and `distances`, which every method changes in lockstep, are one list of entries, and
`size` is its length. A Rust panic / integer underflow is the outer `none` of a result.
-/

namespace Verif.Queue

variable {I D : Type} [DecidableEq I] [LinearOrder D]

/-- One stored candidate (queue.rs:80–83). -/
structure Entry (I D : Type) where
  id : I
  dist : D
  visited : Bool
deriving DecidableEq

/-- `struct NeighborPriorityQueue` (queue.rs:68–90). -/
structure Queue (I D : Type) where
  entries : List (Entry I D)
  capacity : Nat
  cursor : Nat
  auto : Bool
  searchL : Nat
deriving DecidableEq

def Queue.size (q : Queue I D) : Nat := q.entries.length

/-- `new` (queue.rs:96–106). -/
def Queue.new (l : Nat) : Queue I D :=
  { entries := [], capacity := l, cursor := 0, auto := false, searchL := l }

/-- `auto_resizable_with_search_param_l` (queue.rs:109–119). -/
def Queue.newAuto (l : Nat) : Queue I D :=
  { entries := [], capacity := l, cursor := 0, auto := true, searchL := l }

/-- `search.ge_simd(target).first()` on 8 lanes (queue.rs:239 and others): the first lane `≥ t`. -/
def firstGE (t : D) (lanes : List D) : Option Nat := lanes.findIdx? (fun d => decide (t ≤ d))

/-- Last part of `get_lower_bound` (queue.rs:265–279): `load_simd_first` fills the missing lanes
with zero (`pad`), which may compare `≥ t`. -/
def lowerBoundTail (pad : D) (ds : List D) (t : D) (index : Nat) : Nat :=
  if index < ds.length then
    match firstGE t (ds.drop index ++ List.replicate (8 - (ds.length - index)) pad) with
    | some offset => index + offset
    | none => ds.length
  else ds.length

/-- Middle part of `get_lower_bound` (queue.rs:254–263): one group of 8. -/
def lowerBoundEight (pad : D) (ds : List D) (t : D) (index : Nat) : Nat :=
  if index + 8 ≤ ds.length then
    match firstGE t ((ds.drop index).take 8) with
    | some offset => index + offset
    | none => lowerBoundTail pad ds t (index + 8)
  else lowerBoundTail pad ds t index

/-- Main loop of `get_lower_bound` (queue.rs:235–252): 16 items at a time. -/
def lowerBoundLoop (pad : D) (ds : List D) (t : D) (index : Nat) : Nat :=
  if index + 16 ≤ ds.length then
    match firstGE t ((ds.drop index).take 8), firstGE t ((ds.drop (index + 8)).take 8) with
    | some offset, _ => index + offset
    | none, some offset => index + 8 + offset
    | none, none => lowerBoundLoop pad ds t (index + 16)
  else lowerBoundEight pad ds t index
termination_by ds.length - index

/-- `get_lower_bound` (queue.rs:229–280). -/
def Queue.lowerBound (pad : D) (q : Queue I D) (t : D) : Nat :=
  lowerBoundLoop pad (q.entries.map (·.dist)) t 0

/-- `insert` (queue.rs:130–171). `pad` is the `f32` zero used by the SIMD tail load. `none` is the
panic of `self.size - 1` at size 0, or of `Vec::insert` out of range. The debug-only uniqueness
assertion is not modelled. -/
def Queue.insert (pad : D) (q : Queue I D) (id : I) (dist : Option D) : Option (Queue I D) :=
  match dist with
  | none => some q
  | some d =>
    -- queue.rs:138–141: the growable queue reserves half as much again when full
    let q := if q.auto && q.size == q.capacity
      then { q with capacity := q.capacity + max 1 (q.capacity / 2) } else q
    -- queue.rs:142–146
    if !q.auto && q.size == q.capacity && q.size == 0 then none
    else if !q.auto && q.size == q.capacity &&
        (match q.entries[q.size - 1]? with | some e => decide (e.dist < d) | none => false) then some q
    else
      let idx := if q.size > 0 then q.lowerBound pad d else 0
      -- queue.rs:154–158
      let es := if q.size == q.capacity then q.entries.take (q.size - 1) else q.entries
      if idx > es.length then none
      else
        some { q with
          entries := es.insertIdx idx ⟨id, d, false⟩
          cursor := if idx < q.cursor then idx else q.cursor }

/-- `drain_best` (queue.rs:174–180). -/
def Queue.drainBest (q : Queue I D) (count : Nat) : Queue I D :=
  let count := min count q.size
  { q with entries := q.entries.drop count, cursor := 0 }

/-- `iter` (queue.rs:190–193) together with `BestCandidatesIterator::next` (queue.rs:560–568). -/
def Queue.iter (q : Queue I D) : List (I × D) :=
  (q.entries.take (min q.searchL q.size)).map fun e => (e.id, e.dist)

/-- `remove` (queue.rs:197–224). -/
def Queue.remove (pad : D) (q : Queue I D) (id : I) (d : D) : Bool × Queue I D :=
  if q.size = 0 then (false, q)
  else
    let index := q.lowerBound pad d
    match q.entries[index]? with
    | some e =>
      if e.id = id then
        (true, { q with
          entries := q.entries.eraseIdx index
          cursor := if index < q.cursor ∧ q.cursor > 0 then q.cursor - 1 else q.cursor })
      else (false, q)
    | none => (false, q)

/-- `has_notvisited_node` (queue.rs:316–318). -/
def Queue.hasNotVisited (q : Queue I D) : Bool := q.cursor < min q.searchL q.size

/-- The cursor loop of `closest_notvisited` (queue.rs:308–310). -/
def advance (es : List (Entry I D)) (c : Nat) : Nat :=
  if h : c < es.length then
    if es[c].visited then advance es (c + 1) else c
  else c
termination_by es.length - c

/-- `closest_notvisited` (queue.rs:297–313) with `set_visited` (queue.rs:377–382); `none` is the
failed assertion `size <= capacity` (or an out-of-range index). -/
def Queue.pop (q : Queue I D) : Option (Option (I × D) × Queue I D) :=
  if !q.hasNotVisited then some (none, q)
  else
    let current := q.cursor
    if ¬ q.size ≤ q.capacity then none
    else
      match q.entries[current]? with
      | none => none
      | some e =>
        let es := q.entries.set current { e with visited := true }
        some (some (e.id, e.dist), { q with entries := es, cursor := advance es (current + 1) })

/-- `reconfigure` (queue.rs:339–353). -/
def Queue.reconfigure (q : Queue I D) (l : Nat) : Queue I D :=
  let q := { q with searchL := l }
  let q := if l < q.size then { q with entries := q.entries.take l, cursor := min q.cursor l } else q
  { q with capacity := l }

/-- `clear` (queue.rs:370–375). -/
def Queue.clear (q : Queue I D) : Queue I D := { q with entries := [], cursor := 0 }

/-- `truncate` (queue.rs:466–474). -/
def Queue.truncate (q : Queue I D) (len : Nat) : Queue I D :=
  if len < q.size then { q with entries := q.entries.take len, cursor := 0 } else q

/-- `retain` (queue.rs:427–456): kept entries are marked unvisited, then `truncate`. -/
def Queue.retain (q : Queue I D) (f : I → D → Bool) : Queue I D :=
  if q.size = 0 then q
  else
    let kept := (q.entries.filter fun e => f e.id e.dist).map fun e => { e with visited := false }
    -- in-place compaction: the first `kept.length` slots hold `kept`, the others are unchanged
    Queue.truncate { q with entries := kept ++ q.entries.drop kept.length } kept.length

end Verif.Queue
