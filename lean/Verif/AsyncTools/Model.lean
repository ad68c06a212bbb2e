import Mathlib.Data.Fintype.Card

/-!
# Model of `diskann/src/utils/async_tools.rs`

`usize` is `Nat`, except for the atomic counter of `DynamicBalancer`, whose wrap-around at
`W = 2^64` is kept.
-/

namespace Verif.AsyncTools

/-! ## `around` (async_tools.rs 19–141) -/

/-- `struct Around` (async_tools.rs:58–63). -/
structure Around (T : Type) where
  slice : List T
  skip : Nat
  position : Nat
  remaining : Nat

/-- `Around::new` (async_tools.rs:66–100). -/
def Around.new {T : Type} (slice : List T) (i len : Nat) : Around T :=
  let max := slice.length
  if max = 0 then
    { slice := slice, skip := 0, position := 0, remaining := 0 }
  else
    let len := min len (max - 1)
    let half := (len + 1) / 2            -- `len.div_ceil(2)`
    let i := min i (max - 1)
    let position := if i ≥ half then i - half else max - (half - i)
    { slice := slice, skip := i, position := position, remaining := len }

/-- `Around::inc` (async_tools.rs:103–112): returns the current position and advances. -/
def Around.inc {T : Type} (a : Around T) : Nat × Around T :=
  let current := a.position
  let next := current + 1
  if next = a.slice.length then (current, { a with position := 0 })
  else (current, { a with position := next })

/-- `Iterator::next for Around` (async_tools.rs:118–133). The unchecked access
`get_unchecked(i)` is `slice[i]?`; the inner `none` is the undefined-behaviour case. -/
def Around.next {T : Type} (a : Around T) : Option (Option T × Around T) :=
  if a.remaining = 0 then none
  else
    let a := { a with remaining := a.remaining - 1 }
    let r := a.inc
    let r := if r.1 = a.skip then r.2.inc else r
    some (a.slice[r.1]?, r.2)

theorem Around.next_remaining {T : Type} {a b : Around T} {x : Option T}
    (h : a.next = some (x, b)) : b.remaining < a.remaining := by
  unfold Around.next at h
  split at h
  · cases h
  · rename_i h0
    simp only [Option.some.injEq, Prod.mk.injEq] at h
    obtain ⟨-, h⟩ := h
    subst h
    simp only [Around.inc]
    split <;> split <;> (try split) <;> simp <;> omega

/-- Driving the iterator to exhaustion, as a `for` loop does. -/
def Around.collect {T : Type} (a : Around T) : List (Option T) :=
  match h : a.next with
  | none => []
  | some (x, b) => x :: b.collect
termination_by a.remaining
decreasing_by exact Around.next_remaining h

/-- `around` (async_tools.rs:51–53). -/
def around {T : Type} (slice : List T) (i len : Nat) : List (Option T) :=
  (Around.new slice i len).collect

/-! ## `DynamicBalancer` (async_tools.rs 143–206), as an interleaving transition system -/

/-- Number of values of a 64-bit `usize`. -/
def W : Nat := 2 ^ 64

/-- What a completed call to `DynamicBalancer::next` returned, and to whom. -/
inductive Event (T : Nat) where
  /-- thread `t` got `Some((items[i], i))` -/
  | yielded (t : Fin T) (i : Nat)
  /-- thread `t` got `None` -/
  | exhausted (t : Fin T)
deriving DecidableEq

/-- Shared counter, per-thread program point, and the history of completed calls
(oldest first). `pending t` means thread `t` has executed the `fetch_add`
(async_tools.rs:177), saw an index past the end and has not yet executed the `fetch_sub`
(async_tools.rs:191). `aborted` models `std::process::abort()` (async_tools.rs:188). -/
structure Balancer (T : Nat) where
  current : Nat
  pending : Fin T → Bool
  aborted : Bool
  log : List (Event T)

/-- `DynamicBalancer::new` (async_tools.rs:163–168). -/
def Balancer.new (T : Nat) : Balancer T :=
  { current := 0, pending := fun _ => false, aborted := false, log := [] }

/-- One atomic step of thread `t`, for `len` items (async_tools.rs:176–195). A thread that is not
pending starts a new call of `next`; a pending thread puts its ticket back. -/
def Balancer.step {T : Nat} (len : Nat) (s : Balancer T) (t : Fin T) : Balancer T :=
  if s.aborted then s
  else if s.pending t then
    { s with
      current := (s.current + W - 1) % W                      -- fetch_sub(1), wrapping
      pending := Function.update s.pending t false
      log := s.log ++ [.exhausted t] }
  else
    let i := s.current                                        -- fetch_add(1), wrapping
    let s := { s with current := (s.current + 1) % W }
    if i < len then { s with log := s.log ++ [.yielded t i] } -- items.get(i) = Some
    else if i = W - 1 then { s with aborted := true }
    else { s with pending := Function.update s.pending t true }

/-- Run a schedule: the sequence of threads that take a step. -/
def Balancer.run {T : Nat} (len : Nat) (sched : List (Fin T)) : Balancer T :=
  sched.foldl (Balancer.step len) (Balancer.new T)

/-! ## `arc_chunks` (async_tools.rs 208–276) -/

/-- `arc_chunks` + `ArcChunk::get_chunk` (async_tools.rs:220–232, 264–266): chunk number `c` is
`slice[cs*c .. min(cs*c+cs, len)]`. -/
def arcChunks {T : Type} (slice : List T) (chunkSize : Nat) : List (List T) :=
  let sliceLen := slice.length
  let numChunks := (sliceLen + chunkSize - 1) / chunkSize      -- `div_ceil`
  (List.range numChunks).map fun chunk =>
    let start := chunkSize * chunk
    let stop := min (start + chunkSize) sliceLen
    (slice.drop start).take (stop - start)

/-! ## `partition` (async_tools.rs 278–364) -/

/-- `partition_impl` (async_tools.rs:351–364); the result is the half-open range `(start, stop)`. -/
def partitionImpl (nitems ntasks task : Nat) : Nat × Nat :=
  let k := nitems / ntasks
  let m := nitems - k * ntasks
  if task ≥ m then
    let start := m * (k + 1) + (task - m) * k
    (start, start + k)
  else
    let start := task * (k + 1)
    (start, start + k + 1)

/-- `partition` (async_tools.rs:289–302). -/
def partition (nitems ntasks task : Nat) : Option (Nat × Nat) :=
  if ntasks ≤ task then none else some (partitionImpl nitems ntasks task)

/-- `PartitionIter` collected (async_tools.rs:311–344): one range per task, in task order. -/
def partitionIter (nitems ntasks : Nat) : List (Nat × Nat) :=
  (List.range ntasks).map (partitionImpl nitems ntasks)

end Verif.AsyncTools
