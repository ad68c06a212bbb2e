/-! # The concurrent vector store of `diskann-inmem`

Model of `diskann-inmem/src/epoch.rs` (epoch based reclamation), `tag.rs` and the slot life cycle in
`store.rs`, as a transition system: any number of actors, each executing one API call at a time, one atomic
memory access per step, sequentially consistent.

Simplifications, all of which only add behaviours or drop unobservable state:
* an *actor* is one API call (or one live handle); a thread holding several handles is several actors;
* which registration slot a guard tries next, and whether it gives up, is a free choice
  (the code starts at a rotating hint and tries each slot once);
* the free list is not authoritative (`freelist.rs` 52-58), so which slot an `acquire` tries is a free choice;
* `data i` stands for the whole payload of slot `i`. -/

namespace Verif.Inmem

/-! ## Tags -/

/-- `diskann-inmem/src/tag.rs` 100, 104, 108, 92, 89. -/
def AVAILABLE : Nat := 0
def OWNED : Nat := 1
def RETIRING : Nat := 2
def PUBLISHED : Nat := 254
def FROZEN : Nat := 255

/-- `tag.rs` 119-121 `Tag::is_reserved`. -/
def isReserved (t : Nat) : Bool := decide (t ≤ RETIRING) || decide (t = FROZEN)

/-- `tag.rs` 125-129 `Tag::can_read`. -/
def canRead (t : Nat) : Bool := decide (PUBLISHED ≤ t)

/-! ## Epoch arithmetic -/

/-- `epoch.rs` 109-111. -/
def queueOf (epoch : Nat) : Nat := epoch % 4

/-- `epoch.rs` 113-115: `queue(epoch.wrapping_sub(2))` on `u64`. -/
def lastQueue (epoch : Nat) : Nat := queueOf ((epoch + (2 ^ 64 - 2)) % 2 ^ 64)

/-! ## State -/

/-- Sizes fixed at construction: `Registry::with_capacity` and `Store::new`. -/
structure Config where
  /-- number of guard registration slots -/
  guardSlots : Nat
  /-- slots `[0, unfrozen)` are writable -/
  unfrozen : Nat
  /-- slots `[unfrozen, total)` are the frozen start points -/
  total : Nat

/-- What a guard is being acquired for. -/
inductive Purpose
  /-- `Store::reader` -/
  | read
  /-- `Store::retire(i)` after it loaded `cur` from the tag of `i` -/
  | retire (i cur : Nat)
deriving DecidableEq, Repr

/-- Where an actor is inside its API call. -/
inductive PC
  | idle
  /-- a `CONCURRENCY VIOLATION` / bounds / debug assertion failed -/
  | panicked
  /-- the documented panic on epoch overflow -/
  | overflowed
  /-- `retire` has loaded the tag, not yet the epoch (store.rs 374-384) -/
  | rGuard (i cur : Nat)
  /-- `guard_inner` after GUARD CHECK (epoch.rs 169) -/
  | gLoaded (p : Purpose) (e : Nat)
  /-- after the successful CAS on guard slot `j`, in the recheck loop (epoch.rs 184-201) -/
  | gCheck (p : Purpose) (j e : Nat) (reset : Bool)
  /-- before the final store (epoch.rs 203-205) -/
  | gStore (p : Purpose) (j e : Nat)
  /-- a live `Reader` holding guard slot `j` at epoch `e`; `reads` are the references handed out, with the
  value found there at the time -/
  | reader (j e : Nat) (reads : List (Nat × Nat))
  /-- `retire` before the CAS (store.rs 390) -/
  | rCas (i cur j e : Nat)
  /-- `retire` before the mirror store (store.rs 395-396) -/
  | rMirror (i j e : Nat)
  /-- `retire` before pushing to the retire queue (store.rs 397) -/
  | rPush (i j e : Nat)
  /-- `retire` before dropping its guard -/
  | rDrop (j : Nat)
  /-- a live `Slot` -/
  | own (i : Nat)
  /-- `Slot::publish` between the two stores (store.rs 780-781) -/
  | pub (i : Nat)
  /-- `Slot::drop` between the two stores (store.rs 788-789) -/
  | unown (i : Nat)
  /-- `try_advance` after locking (epoch.rs 303) -/
  | aEpoch
  /-- `can_advance` about to look at guard slot `k` (epoch.rs 259-267) -/
  | aScan (cur k m : Nat)
  /-- about to increment the epoch (epoch.rs 322) -/
  | aInc (cur : Nat)
  /-- `try_drain` iterating over retire queue `q` (store.rs 299) -/
  | aDrain (q : Nat)
  /-- before releasing the mirror of `i` (store.rs 311-312) -/
  | aMirror (q i : Nat)
  /-- before releasing the tag of `i` (store.rs 313) -/
  | aTag (q i : Nat)
deriving DecidableEq, Repr

/-- Shared memory and the actors. -/
structure State where
  epoch : Nat
  /-- registration slots; 0 = available -/
  guards : Nat → Nat
  /-- the `drain` mutex, with its owner -/
  lock : Option Nat
  /-- the four retire queues -/
  queues : Nat → List Nat
  /-- authoritative tags -/
  tags : Nat → Nat
  /-- inline mirror of the tags -/
  mirror : Nat → Nat
  /-- slot payloads -/
  data : Nat → Nat
  pcs : Nat → PC

/-- Point update. -/
def upd {α : Type} (f : Nat → α) (k : Nat) (v : α) : Nat → α := fun x => if x = k then v else f x

/-- `Registry::with_capacity` (epoch.rs 132-142), `Store::new` (store.rs 228-254; the buffer is
zero-initialised, buffer.rs 53). -/
def State.init (cfg : Config) (data : Nat → Nat) : State where
  epoch := 1
  guards := fun _ => 0
  lock := none
  queues := fun _ => []
  tags := fun i => if cfg.unfrozen ≤ i ∧ i < cfg.total then FROZEN else AVAILABLE
  mirror := fun i => if cfg.unfrozen ≤ i ∧ i < cfg.total then FROZEN else AVAILABLE
  data := data
  pcs := fun _ => .idle

/-- Resolution of the free choices. -/
inductive Choice
  | startRead
  | startRetire (i : Nat)
  | acquire (i : Nat)
  | startDrain
  | slot (j : Nat)
  | giveUp
  | readAt (i : Nat)
  | write (v : Nat)
  /-- drop a reader, publish a slot -/
  | finish
  /-- drop a slot without publishing -/
  | abandon
  /-- the next instruction -/
  | go
deriving DecidableEq, Repr

/-- Observable events: what a client of the store sees. -/
inductive Event
  | published (i v : Nat)
  | retired (i : Nat)
  /-- `try_drain` made slot `i` available again -/
  | reclaimed (i : Nat)
  /-- result of `Reader::read(i)` -/
  | read (i : Nat) (r : Option Nat)
deriving DecidableEq, Repr

/-- The state in which `guard()` returns. -/
def held (p : Purpose) (j e : Nat) : PC :=
  match p with
  | .read => .reader j e []
  | .retire i cur => .rCas i cur j e

/-- One atomic step of actor `a`; `none` if the choice does not apply. -/
def act (cfg : Config) (a : Nat) (c : Choice) (s : State) : Option (State × Option Event) :=
  let goto (s : State) (pc : PC) : Option (State × Option Event) := some ({ s with pcs := upd s.pcs a pc }, none)
  match s.pcs a, c with
  -- `Store::reader` → `Registry::guard_inner`, GUARD CHECK
  | .idle, .startRead => goto s (.gLoaded .read s.epoch)
  -- `Store::retire`: load the tag; reserved tags are refused
  | .idle, .startRetire i =>
    if i < cfg.total then
      if isReserved (s.tags i) then goto s .idle else goto s (.rGuard i (s.tags i))
    else goto s .idle
  | .rGuard i cur, .go => goto s (.gLoaded (.retire i cur) s.epoch)
  -- load + CAS on a registration slot (epoch.rs 178-182)
  | .gLoaded p e, .slot j =>
    if j < cfg.guardSlots ∧ s.guards j = 0 then
      goto { s with guards := upd s.guards j e } (.gCheck p j e false)
    else goto s (.gLoaded p e)
  | .gLoaded _ _, .giveUp => goto s .idle
  -- GUARD RECHECK
  | .gCheck p j e reset, .go =>
    if s.epoch = e then
      if reset then goto s (.gStore p j e) else goto s (held p j e)
    else goto s (.gCheck p j s.epoch true)
  | .gStore p j e, .go => goto { s with guards := upd s.guards j e } (held p j e)
  -- `Reader::read`
  | .reader j e reads, .readAt i =>
    if i < cfg.total ∧ canRead (s.mirror i) then
      some ({ s with pcs := upd s.pcs a (.reader j e ((i, s.data i) :: reads)) }, some (.read i (some (s.data i))))
    else some (s, some (.read i none))
  -- `Guard::drop`
  | .reader j _ _, .finish => goto { s with guards := upd s.guards j 0 } .idle
  -- `Store::retire`: CAS, mirror store, push, drop of the guard
  | .rCas i cur j e, .go =>
    if s.tags i = cur then goto { s with tags := upd s.tags i RETIRING } (.rMirror i j e)
    else goto s (.rDrop j)
  | .rMirror i j e, .go =>
    some ({ s with mirror := upd s.mirror i RETIRING, pcs := upd s.pcs a (.rPush i j e) }, some (.retired i))
  | .rPush i j e, .go =>
    goto { s with queues := upd s.queues (queueOf e) (s.queues (queueOf e) ++ [i]) } (.rDrop j)
  | .rDrop j, .go => goto { s with guards := upd s.guards j 0 } .idle
  -- `Store::try_acquire`
  | .idle, .acquire i =>
    if i < cfg.total ∧ s.tags i = AVAILABLE then goto { s with tags := upd s.tags i OWNED } (.own i)
    else goto s .idle
  -- writing through `Slot::as_mut_slice`
  | .own i, .write v => goto { s with data := upd s.data i v } (.own i)
  -- `Slot::publish`
  | .own i, .finish =>
    some ({ s with mirror := upd s.mirror i PUBLISHED, pcs := upd s.pcs a (.pub i) },
      some (.published i (s.data i)))
  | .pub i, .go => goto { s with tags := upd s.tags i PUBLISHED } .idle
  -- `Slot::drop`
  | .own i, .abandon => goto { s with mirror := upd s.mirror i AVAILABLE } (.unown i)
  | .unown i, .go => goto { s with tags := upd s.tags i AVAILABLE } .idle
  -- `Registry::try_advance`
  | .idle, .startDrain =>
    match s.lock with
    | none => goto { s with lock := some a } .aEpoch
    | some _ => goto s .idle
  | .aEpoch, .go => goto s (.aScan s.epoch 0 s.epoch)
  | .aScan cur k m, .go =>
    if k < cfg.guardSlots then
      goto s (.aScan cur (k + 1) (if s.guards k ≠ 0 then min m (s.guards k) else m))
    else if m = 2 ^ 64 - 1 then goto { s with lock := none } .overflowed
    else if m = cur then goto s (.aInc cur)
    else goto { s with lock := none } .idle
  | .aInc cur, .go =>
    if s.epoch = cur then goto { s with epoch := s.epoch + 1 } (.aDrain (lastQueue cur))
    else goto s .panicked
  -- `Store::try_drain`
  | .aDrain q, .go =>
    match s.queues q with
    | [] => goto { s with lock := none } .idle
    | i :: rest =>
      if i < cfg.total then goto { s with queues := upd s.queues q rest } (.aMirror q i)
      else goto s .panicked
  | .aMirror q i, .go =>
    if s.mirror i = RETIRING then goto { s with mirror := upd s.mirror i AVAILABLE } (.aTag q i)
    else goto s .panicked
  | .aTag q i, .go =>
    if s.tags i = RETIRING then
      some ({ s with tags := upd s.tags i AVAILABLE, pcs := upd s.pcs a (.aDrain q) }, some (.reclaimed i))
    else goto s .panicked
  | _, _ => none

/-- Executions: a reachable state together with the events seen so far, oldest first. -/
inductive Run (cfg : Config) (data : Nat → Nat) : State → List Event → Prop
  | start : Run cfg data (State.init cfg data) []
  | step {s s' : State} {es : List Event} {ev : Option Event} (a : Nat) (c : Choice) :
      Run cfg data s es → act cfg a c s = some (s', ev) → Run cfg data s' (es ++ ev.toList)

/-- Run a fixed schedule (for examples). -/
def runSchedule (cfg : Config) (s : State) : List (Nat × Choice) → Option (State × List Event)
  | [] => some (s, [])
  | (a, c) :: rest =>
    match act cfg a c s with
    | none => none
    | some (s', ev) => (runSchedule cfg s' rest).map fun r => (r.1, ev.toList ++ r.2)

end Verif.Inmem
