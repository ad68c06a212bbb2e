import Verif.Garnet.FsmModel
/-
Specification of the id allocator: a set of ids in use, driven by the events of the log.
Logs are newest first.
-/
namespace Verif.Garnet

/-- The ids in use after the events of the log, starting from `U0`. -/
def inUse (U0 : List Nat) : List Ev → List Nat
  | [] => U0
  | .acq _ id _ :: l => id :: inUse U0 l
  | .rel id :: l => (inUse U0 l).erase id

/-- Every acquired id was not in use at that moment, every released id was. -/
def Valid (U0 : List Nat) : List Ev → Prop
  | [] => True
  | .acq _ id _ :: l => id ∉ inUse U0 l ∧ Valid U0 l
  | .rel id :: l => id ∈ inUse U0 l ∧ Valid U0 l

/-- The most recent acquisition by a thread: the id and the quantization flag. -/
def lastAcq (t : Nat) : List Ev → Option (Nat × Bool)
  | [] => none
  | .acq t' id q :: l => if t' = t then some (id, q) else lastAcq t l
  | .rel _ :: l => lastAcq t l

/-- The ids acquired, newest first. -/
def acqIds : List Ev → List Nat
  | [] => []
  | .acq _ id _ :: l => id :: acqIds l
  | .rel _ :: l => acqIds l

/-- A state in which the allocator may start: nobody is running, the persisted bitmaps say exactly `U0`
is in use, the counter agrees, and the next fresh id is above every used one.  `St.fresh` and `St.load`
produce such states. -/
structure Start (U0 : List Nat) (s : St) : Prop where
  idle : ∀ t, s.pc t = .idle
  minter : s.minter = none
  refill : s.refillLock = none
  log : s.log = []
  sizes : ∀ b blk, s.store b = some blk → blk.length = blockBytes
  used : ∀ id, s.store.used id = true ↔ id ∈ U0
  nodup : U0.Nodup
  total : s.total = U0.length
  above : ∀ id ∈ U0, id < s.next
  blocks : ∃ mb, s.maxBlock = some mb ∧ (∀ b, b ≤ mb → s.store b ≠ none) ∧ ∀ id ∈ U0, blockOf id ≤ mb
  queue : ∀ id ∈ s.queue, id < s.next ∧ id ∉ U0
  queueBlocks : ∀ id ∈ s.queue, ∀ mb, s.maxBlock = some mb → blockOf id ≤ mb

end Verif.Garnet
