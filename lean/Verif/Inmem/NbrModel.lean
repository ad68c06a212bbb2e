import Verif.Inmem.EbrModel

/-! # The in-memory adjacency store of `diskann-inmem`

Model of `neighbors.rs`: one flat buffer of `u32` cells, rows of `max_length + 1` cells whose first cell is the
length, and one read/write lock per group of 16 rows. Threads interleave at the granularity of single cell
accesses; lock acquisition is one atomic step (`parking_lot::RwLock` is trusted to exclude). Cells are `Nat`
(values stored are lengths `≤ max_length` and `u32` ids, so no truncation happens). -/

namespace Verif.Inmem

/-- `neighbors.rs` 48. -/
def LOCK_GRANULARITY : Nat := 16

/-- `neighbors.rs` 50-52. -/
def lockIndex (i : Nat) : Nat := i / LOCK_GRANULARITY

structure NbrConfig where
  entries : Nat
  maxLen : Nat

/-- Cells per row, `neighbors.rs` 75-79 (in units of `size_of::<u32>()`). -/
def NbrConfig.stride (cfg : NbrConfig) : Nat := cfg.maxLen + 1

/-- Cells in the allocation, `buffer.rs` 35-47. -/
def NbrConfig.cells (cfg : NbrConfig) : Nat := cfg.stride * cfg.entries

/-- First cell of row `i`, `buffer.rs` 90-96. -/
def NbrConfig.row (cfg : NbrConfig) (i : Nat) : Nat := cfg.stride * i

/-- Where a thread is. -/
inductive NPC
  | idle
  /-- holds the write lock of `i`'s group; `k` elements of `l` copied to cells `off ..` -/
  | writing (i : Nat) (append : Bool) (off : Nat) (l : List Nat) (k : Nat)
  /-- holds the read lock of `i`'s group; `acc` copied of `len` -/
  | reading (i len : Nat) (acc : List Nat)
deriving DecidableEq, Repr

structure NState where
  mem : Nat → Nat
  pcs : Nat → NPC
  /-- an access outside the allocation happened -/
  ub : Bool

/-- `alloc_zeroed`, `buffer.rs` 53. -/
def NState.init : NState := ⟨fun _ => 0, fun _ => .idle, false⟩

/-- Does this program counter hold the write (read) lock of group `g`? -/
def NPC.holdsWrite : NPC → Nat → Prop
  | .writing i _ _ _ _, g => lockIndex i = g
  | _, _ => False

def NPC.holdsRead : NPC → Nat → Prop
  | .reading i _ _, g => lockIndex i = g
  | _, _ => False

/-- Operations a thread may start. -/
inductive NOp
  | get (i : Nat)
  | set (i : Nat) (l : List Nat)
  | append (i : Nat) (l : List Nat)
deriving DecidableEq, Repr

/-- What an operation returned. -/
inductive NEv
  | get (i : Nat) (l : List Nat)
  | set (i : Nat) (l : List Nat)
  | append (i : Nat) (l : List Nat)
  | setTooLong (i : Nat) (l : List Nat)
  | appendTooLong (i : Nat) (l : List Nat)
  | outOfBounds (i : Nat)
deriving DecidableEq, Repr

/-- `neighbors.rs` 226-232 `check`, then (for `set`) 211-216; no lock is needed for these. -/
def earlyError (cfg : NbrConfig) : NOp → Option NEv
  | .get i => if cfg.entries ≤ i then some (.outOfBounds i) else none
  | .append i _ => if cfg.entries ≤ i then some (.outOfBounds i) else none
  | .set i l =>
    if cfg.entries ≤ i then some (.outOfBounds i)
    else if cfg.maxLen < l.length then some (.setTooLong i l) else none

/-- Reading and writing a cell; out of bounds sets the flag. -/
def NState.touch (cfg : NbrConfig) (s : NState) (c : Nat) : NState :=
  { s with ub := s.ub || decide (cfg.cells ≤ c) }

def NState.write (cfg : NbrConfig) (s : NState) (c v : Nat) : NState :=
  { s.touch cfg c with mem := upd s.mem c v }

def NState.goto (s : NState) (a : Nat) (pc : NPC) : NState := { s with pcs := upd s.pcs a pc }

/-- One atomic step. `NStep cfg s s' e`: the system may go from `s` to `s'`, an operation returning `e` if any. -/
inductive NStep (cfg : NbrConfig) : NState → NState → Option NEv → Prop
  /-- an operation rejected before locking -/
  | reject {s : NState} (a : Nat) (op : NOp) (e : NEv) : s.pcs a = .idle → earlyError cfg op = some e →
      NStep cfg s s (some e)
  /-- 133: take the read lock, 147-149: read the length -/
  | getLock {s : NState} (a i : Nat) : s.pcs a = .idle → earlyError cfg (.get i) = none →
      (∀ b, ¬ (s.pcs b).holdsWrite (lockIndex i)) →
      NStep cfg s ((s.touch cfg (cfg.row i)).goto a (.reading i (min (s.mem (cfg.row i)) cfg.maxLen) [])) none
  /-- 155-161: copy one cell -/
  | getCopy {s : NState} (a i len : Nat) (acc : List Nat) : s.pcs a = .reading i len acc → acc.length < len →
      NStep cfg s ((s.touch cfg (cfg.row i + 1 + acc.length)).goto a
        (.reading i len (acc ++ [s.mem (cfg.row i + 1 + acc.length)]))) none
  /-- 162-163: done, unlock -/
  | getDone {s : NState} (a i len : Nat) (acc : List Nat) : s.pcs a = .reading i len acc → len ≤ acc.length →
      NStep cfg s (s.goto a .idle) (some (.get i acc))
  /-- 219: take the write lock for `set` -/
  | setLock {s : NState} (a i : Nat) (l : List Nat) : s.pcs a = .idle → earlyError cfg (.set i l) = none →
      (∀ b, ¬ (s.pcs b).holdsWrite (lockIndex i) ∧ ¬ (s.pcs b).holdsRead (lockIndex i)) →
      NStep cfg s (s.goto a (.writing i false 0 l 0)) none
  /-- 168-173, 320-322: take the write lock for `append` and read the length; 338-349 follows -/
  | appendLock {s : NState} (a i : Nat) (l : List Nat) : s.pcs a = .idle → earlyError cfg (.append i l) = none →
      (∀ b, ¬ (s.pcs b).holdsWrite (lockIndex i) ∧ ¬ (s.pcs b).holdsRead (lockIndex i)) →
      min (s.mem (cfg.row i)) cfg.maxLen + l.length ≤ cfg.maxLen →
      NStep cfg s ((s.touch cfg (cfg.row i)).goto a (.writing i true (min (s.mem (cfg.row i)) cfg.maxLen) l 0)) none
  /-- 324-329: too long, unlock -/
  | appendTooLong {s : NState} (a i : Nat) (l : List Nat) : s.pcs a = .idle → earlyError cfg (.append i l) = none →
      (∀ b, ¬ (s.pcs b).holdsWrite (lockIndex i) ∧ ¬ (s.pcs b).holdsRead (lockIndex i)) →
      cfg.maxLen < min (s.mem (cfg.row i)) cfg.maxLen + l.length →
      NStep cfg s (s.touch cfg (cfg.row i)) (some (.appendTooLong i l))
  /-- 338-343, 363: copy one element -/
  | copy {s : NState} (a i : Nat) (ap : Bool) (off : Nat) (l : List Nat) (k : Nat) (h : k < l.length) :
      s.pcs a = .writing i ap off l k →
      NStep cfg s ((s.write cfg (cfg.row i + off + 1 + k) l[k]).goto a (.writing i ap off l (k + 1))) none
  /-- 347, 367: store the new length, unlock -/
  | finish {s : NState} (a i : Nat) (ap : Bool) (off : Nat) (l : List Nat) (k : Nat) :
      s.pcs a = .writing i ap off l k → l.length ≤ k →
      NStep cfg s ((s.write cfg (cfg.row i) (off + l.length)).goto a .idle)
        (some (if ap then .append i l else .set i l))

/-- Executions from the freshly allocated buffer, with the results in the order operations returned. -/
inductive NRun (cfg : NbrConfig) : NState → List NEv → Prop
  | init : NRun cfg NState.init []
  | step {s s' : NState} {tr : List NEv} {e : Option NEv} : NRun cfg s tr → NStep cfg s s' e →
      NRun cfg s' (tr ++ e.toList)

end Verif.Inmem
