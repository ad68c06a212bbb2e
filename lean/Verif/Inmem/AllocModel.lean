import Verif.Inmem.EbrModel

/-! # Slot allocation in `diskann-inmem`

Model of `freelist.rs` and of `Store::{acquire, scan_acquire, try_drain}` (`store.rs`) run without interference
(one thread, no live readers), and of the concurrent id minting loop. -/

namespace Verif.Inmem

/-- `freelist.rs` 69. -/
def SCAN_SIZE : Nat := 256

/-- `store.rs` 166. -/
def RETRY_LIMIT : Nat := 20

/-! ## Minting: any number of threads in the CAS loop of `Freelist::pop` -/

/-- A thread inside `pop` (`freelist.rs` 113-124) that has seen `n` in `next`. -/
inductive MintPC
  | idle
  | loaded (n : Nat)
deriving DecidableEq, Repr

structure MintState where
  next : Nat
  pcs : Nat → MintPC
  /-- ids handed out so far, newest first -/
  minted : List Nat

def MintState.init : MintState := ⟨0, fun _ => .idle, []⟩

/-- One atomic step of thread `a`: load `next` (113), or one round of the loop (114-124). A spurious or real CAS
failure reloads; leaving the loop is `Id::Scan`. -/
def mintStep (max a : Nat) (s : MintState) : MintState :=
  match s.pcs a with
  | .idle => { s with pcs := upd s.pcs a (.loaded s.next) }
  | .loaded n =>
    if n < max then
      if s.next = n then { next := n + 1, pcs := upd s.pcs a .idle, minted := n :: s.minted }
      else { s with pcs := upd s.pcs a (.loaded s.next) }
    else { s with pcs := upd s.pcs a .idle }

/-- Any schedule. -/
def mintRun (max : Nat) (s : MintState) (sched : List Nat) : MintState := sched.foldl (fun s a => mintStep max a s) s

/-! ## The allocator without interference -/

/-- The parts of `Store` that allocation touches. -/
structure Alloc where
  /-- number of writable slots (`Store::unfrozen`, `Freelist::max`) -/
  max : Nat
  /-- capacity of the recycle queue (non-zero) -/
  recycleCap : Nat
  recycled : List Nat
  next : Nat
  /-- `AtomicU32` -/
  scanBucket : Nat
  tags : Nat → Nat
  epoch : Nat
  queues : Nat → List Nat

/-- `freelist.rs` 92-103, `store.rs` 228-254; slots from `max` on are frozen. -/
def Alloc.init (max recycleCap : Nat) : Alloc :=
  ⟨max, recycleCap, [], 0, 0, fun i => if i < max then AVAILABLE else FROZEN, 1, fun _ => []⟩

/-- `freelist.rs` 168-174 `push` onto a bounded FIFO queue. -/
def Alloc.push (s : Alloc) (id : Nat) : Alloc :=
  if id < s.max then
    if s.recycled.length < s.recycleCap then { s with recycled := s.recycled ++ [id] } else s
  else s

/-- `freelist.rs` 108-128 `pop` (uncontended): `none` = `Id::Scan`. -/
def Alloc.pop (s : Alloc) : Option Nat × Alloc :=
  match s.recycled with
  | id :: rest => (some id, { s with recycled := rest })
  | [] => if s.next < s.max then (some s.next, { s with next := s.next + 1 }) else (none, s)

/-- `store.rs` 466-487 `slot`/`try_acquire`: `none` if the slot is not available. -/
def Alloc.slot (s : Alloc) (i : Nat) : Option Alloc :=
  if s.tags i = AVAILABLE then some { s with tags := upd s.tags i OWNED } else none

def numBuckets (max : Nat) : Nat := (max + SCAN_SIZE - 1) / SCAN_SIZE

/-- `freelist.rs` 142-163 `scan`: the range `[start, stop)` of bucket `b` (`checked_add` cannot fail in `Nat`;
its fallback is the same `max`). -/
def bucketStart (b : Nat) : Nat := b * SCAN_SIZE
def bucketStop (max b : Nat) : Nat := min (b * SCAN_SIZE + SCAN_SIZE) max

def Alloc.scan (s : Alloc) : (Nat × Nat) × Alloc :=
  if s.max = 0 then ((0, 0), s)
  else
    let b := s.scanBucket % numBuckets s.max
    ((bucketStart b, bucketStop s.max b), { s with scanBucket := (s.scanBucket + 1) % 2 ^ 32 })

/-- `store.rs` 426-448: the body of one chunk, slots in order. -/
def scanChunk (s : Alloc) (acquired : Option Nat) : List Nat → Option Nat × Alloc
  | [] => (acquired, s)
  | i :: rest =>
    if s.tags i = AVAILABLE then
      match acquired with
      | none => scanChunk { s with tags := upd s.tags i OWNED } (some i) rest
      | some j => scanChunk (s.push i) (some j) rest
    else scanChunk s acquired rest

/-- `store.rs` 415-464 `scan_acquire`; outer `none` = does not finish within `fuel` rounds. -/
def scanLoop (fuel : Nat) (s : Alloc) (remaining since : Nat) : Option (Option Nat × Alloc) :=
  match remaining with
  | 0 => some (none, s)
  | r + 1 =>
    match fuel with
    | 0 => none
    | fuel + 1 =>
      let ((start, stop), s) := s.scan
      let (acq, s) := scanChunk s none (List.range' start (stop - start))
      match acq with
      | some i => some (some i, s)
      | none =>
        if since + 1 = 4 then
          match s.recycled with
          | id :: rest =>
            match Alloc.slot { s with recycled := rest } id with
            | some s => some (some id, s)
            | none => scanLoop fuel { s with recycled := rest } (r + 1 - (stop - start)) 0
          | [] => scanLoop fuel s (r + 1 - (stop - start)) 0
        else scanLoop fuel s (r + 1 - (stop - start)) (since + 1)

def Alloc.scanAcquire (s : Alloc) : Option (Option Nat × Alloc) :=
  let r := (s.max + RETRY_LIMIT - 1) / RETRY_LIMIT
  scanLoop r s r 0

/-- `store.rs` 299-317: release and recycle the drained slots; `none` = assertion failure. -/
def drainAll (s : Alloc) : List Nat → Option Alloc
  | [] => some s
  | i :: rest =>
    if s.tags i = RETIRING then drainAll (Alloc.push { s with tags := upd s.tags i AVAILABLE } i) rest else none

/-- `store.rs` 274-319 `try_drain` with no live guard: the epoch always advances (`epoch.rs` 256-330). -/
def Alloc.tryDrain (s : Alloc) : Option Alloc :=
  let q := lastQueue s.epoch
  drainAll { s with epoch := s.epoch + 1, queues := upd s.queues q [] } (s.queues q)

/-- `store.rs` 337-354 `acquire`: `some (none, s)` = returned `None`. -/
def acquireLoop : Nat → Alloc → Option (Option Nat × Alloc)
  | 0, s => some (none, s)
  | n + 1, s =>
    match s.pop with
    | (some id, s) =>
      match s.slot id with
      | some s => some (some id, s)
      | none => acquireLoop n s
    | (none, s) =>
      match s.scanAcquire with
      | none => none
      | some (some i, s) => some (some i, s)
      | some (none, s) =>
        match s.tryDrain with
        | none => none
        | some s => acquireLoop n s

def Alloc.acquire (s : Alloc) : Option (Option Nat × Alloc) := acquireLoop RETRY_LIMIT s

/-! ## Histories -/

inductive AOp
  | acquire
  /-- `Slot::publish` -/
  | publish (i : Nat)
  /-- `Slot::drop` -/
  | abandon (i : Nat)
  /-- `Store::retire` -/
  | retire (i : Nat)
  | drain
deriving DecidableEq, Repr

/-- One operation; calls that do not apply (publishing a slot that is not owned, retiring one that is not
published, `store.rs` 374-404) leave the state alone. `none` = panic or nontermination. -/
def Alloc.apply (s : Alloc) : AOp → Option Alloc
  | .acquire => s.acquire.map Prod.snd
  | .publish i => some (if s.tags i = OWNED then { s with tags := upd s.tags i PUBLISHED } else s)
  | .abandon i => some (if s.tags i = OWNED then { s with tags := upd s.tags i AVAILABLE } else s)
  | .retire i =>
    some (if s.tags i = PUBLISHED then
      { s with tags := upd s.tags i RETIRING,
               queues := upd s.queues (queueOf s.epoch) (s.queues (queueOf s.epoch) ++ [i]) }
    else s)
  | .drain => s.tryDrain

def Alloc.run (s : Alloc) : List AOp → Option Alloc
  | [] => some s
  | op :: ops =>
    match s.apply op with
    | none => none
    | some s => s.run ops

end Verif.Inmem
