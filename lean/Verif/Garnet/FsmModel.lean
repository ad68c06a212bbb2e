/-
Model of the persistent id allocator ("free space map") of the Garnet provider.

Source: /repo/diskann-garnet/src/fsm.rs

The allocator is a transition system: any number of threads, each inside one call, one atomic access (a
storage callback, a queue operation, an atomic load or store, a lock-protected read) per step.  Every
storage callback may fail at any time.

Simplifications: ids and counters are unbounded (`u32` exhaustion is out of scope; `total_used`, a wrapping
counter, is an integer); blocks are keyed by their number (`block_key` is injective); `RwLock` read sections
that only copy fields out are one step; a thread never dies while holding a lock.
-/
namespace Verif.Garnet

abbrev Byte := BitVec 8

/-- `BLOCK_SIZE_IDS`, `BLOCK_SIZE_BYTES`, `FAST_SIZE` (fsm.rs 30-32). -/
def blockIds : Nat := 65536
def blockBytes : Nat := 8192
def fastSize : Nat := 1024

/-- `bit_used` (fsm.rs 555-557). -/
def bitUsed (b : Byte) (i : Nat) : Bool := (b >>> (7 - i)) &&& 1#8 == 1#8

/-- `update_status` (fsm.rs 560-567): new byte and whether it changed. -/
def updateStatus (used : Bool) (b : Byte) (i : Nat) : Byte × Bool :=
  let mask : Byte := 1#8 <<< (7 - i)
  let value : Byte := (if used then 1#8 else 0#8) <<< (7 - i)
  let changed := (used && b &&& mask == 0#8) || (!used && b &&& mask != 0#8)
  ((b &&& ~~~mask) ||| value, changed)

/-- The blocks stored in Garnet. -/
abbrev Store := Nat → Option (List Byte)

def Store.put (s : Store) (k : Nat) (v : List Byte) : Store := fun j => if j = k then some v else s j

/-- A block of zeros: `vec![0u8; BLOCK_SIZE_BYTES]`. -/
def zeroBlock : List Byte := List.replicate blockBytes 0#8

/-- `indexes_for_id` (fsm.rs 380-387). -/
def blockOf (id : Nat) : Nat := id / blockIds
def byteOf (id : Nat) : Nat := id % blockIds / 8
def bitOf (id : Nat) : Nat := id % blockIds % 8

/-- The storage update of `mark_id_unchecked` (fsm.rs 231-243): an atomic read-modify-write of the block,
zero-initialised when absent; `none` is an out-of-bounds panic. -/
def Store.mark (s : Store) (id : Nat) (used : Bool) : Option (Store × Bool) :=
  let blk := (s (blockOf id)).getD zeroBlock
  match blk[byteOf id]? with
  | none => none
  | some b =>
    let (b', changed) := updateStatus used b (bitOf id)
    some (s.put (blockOf id) (blk.set (byteOf id) b'), changed)

/-- The persisted status of an id, as `is_free` (fsm.rs 281-312) reads it (negated). -/
def Store.used (s : Store) (id : Nat) : Bool :=
  match s (blockOf id) with
  | none => false
  | some blk => match blk[byteOf id]? with
    | none => false
    | some b => bitUsed b (bitOf id)

/-- `expand_to` (fsm.rs 456-484) when the write succeeds; `maxBlock = none` is `u32::MAX`. Result `none`
is the `IdOutOfRange` error. -/
def expandTo (s : Store) (maxBlock : Option Nat) (id : Nat) : Option (Store × Option Nat) :=
  match maxBlock with
  | none => some (s.put (blockOf id) zeroBlock, some 0)
  | some m =>
    if blockOf id = m + 1 then some (s.put (blockOf id) zeroBlock, some (m + 1))
    else if blockOf id > m + 1 then none
    else some (s, some m)

/-- Where a thread is inside its call. -/
inductive PC
  | idle
  -- next_id (fsm.rs 320-366)
  | nStart
  | nFlag
  | nPop
  | nPop2
  | nCheck (id : Nat)
  | nMark (id : Nat)
  | nAdd (id : Nat)
  | mint0
  | mint1 (id : Nat)
  | mint2 (id : Nat)
  | mint3 (id : Nat)
  | hold (id : Nat)
  -- refill_fast_free_list (fsm.rs 396-453)
  | rLock
  | rCheck
  | rRead
  | rScan (nx mb id : Nat) (has : Bool) (blk : Option (List Byte))
  | rPush (nx mb id : Nat) (blk : Option (List Byte))
  | rFin (has : Bool)
  -- mark_free (fsm.rs 213-216)
  | fCheck (id : Nat)
  | fMark (id : Nat)
  | fSub (id : Nat)
  | fPush (id : Nat)
  | fFlag

/-- What happened, for the specification: thread `t` took `id` with `should_quantize() = q`; `id` was
released. -/
inductive Ev
  | acq (t id : Nat) (q : Bool)
  | rel (id : Nat)
deriving DecidableEq, Repr

/-- `FreeSpaceMap` (fsm.rs 88-106) with the threads and an event log (newest first). -/
structure St where
  store : Store
  hasFree : Bool
  queue : List Nat
  next : Nat
  maxBlock : Option Nat
  total : Int
  reuse : Bool
  maxBackfill : Nat
  quant : Bool
  minter : Option Nat
  refillLock : Option Nat
  pc : Nat → PC
  log : List Ev

def upd {α : Type} (f : Nat → α) (t : Nat) (x : α) : Nat → α := fun j => if j = t then x else f j

/-- Next position of the scan after moving to `id`: the block buffer is dropped at a block boundary. -/
def keepBlk (id : Nat) (blk : Option (List Byte)) : Option (List Byte) :=
  if id % blockIds = 0 then none else blk

/-- The thread holds the read side of `barrier`: it is in `next_id`, or still owns the returned guard. -/
def PC.inBarrier : PC → Prop
  | .idle | .fCheck _ | .fMark _ | .fSub _ | .fPush _ | .fFlag => False
  | _ => True

/-- One atomic step. -/
inductive Step : St → St → Prop
  -- next_id
  | callNext (s t) : s.pc t = .idle → Step s { s with pc := upd s.pc t .nStart }
  | reuseOn (s t) : s.pc t = .nStart → s.reuse = true → Step s { s with pc := upd s.pc t .nFlag }
  | reuseOff (s t) : s.pc t = .nStart → s.reuse = false → Step s { s with pc := upd s.pc t .mint0 }
  | flagOn (s t) : s.pc t = .nFlag → s.hasFree = true → Step s { s with pc := upd s.pc t .nPop }
  | flagOff (s t) : s.pc t = .nFlag → s.hasFree = false → Step s { s with pc := upd s.pc t .mint0 }
  | popSome (s t id q) : s.pc t = .nPop → s.queue = id :: q →
      Step s { s with queue := q, pc := upd s.pc t (.nCheck id) }
  | popNone (s t) : s.pc t = .nPop → s.queue = [] → Step s { s with pc := upd s.pc t .rLock }
  | pop2Some (s t id q) : s.pc t = .nPop2 → s.queue = id :: q →
      Step s { s with queue := q, pc := upd s.pc t (.nCheck id) }
  | pop2None (s t) : s.pc t = .nPop2 → s.queue = [] → Step s { s with pc := upd s.pc t .mint0 }
  | checkOk (s t id) : s.pc t = .nCheck id → s.minter = none → id < s.next →
      Step s { s with pc := upd s.pc t (.nMark id) }
  | checkErr (s t id) : s.pc t = .nCheck id → s.minter = none → ¬ id < s.next →
      Step s { s with pc := upd s.pc t .idle }
  | markChanged (s t id st') : s.pc t = .nMark id → s.store.mark id true = some (st', true) →
      Step s { s with store := st', pc := upd s.pc t (.nAdd id), log := .acq t id s.quant :: s.log }
  | markSame (s t id st') : s.pc t = .nMark id → s.store.mark id true = some (st', false) →
      Step s { s with store := st', pc := upd s.pc t .nPop }
  | markFail (s t id) : s.pc t = .nMark id → Step s { s with pc := upd s.pc t .idle }
  | add (s t id) : s.pc t = .nAdd id → Step s { s with total := s.total + 1, pc := upd s.pc t (.hold id) }
  | drop (s t id) : s.pc t = .hold id → Step s { s with pc := upd s.pc t .idle }
  | mintLock (s t) : s.pc t = .mint0 → s.minter = none →
      Step s { s with minter := some t, next := s.next + 1, pc := upd s.pc t (.mint1 s.next) }
  | expand (s t id st' mb') : s.pc t = .mint1 id → expandTo s.store s.maxBlock id = some (st', mb') →
      Step s { s with store := st', maxBlock := mb', pc := upd s.pc t (.mint2 id) }
  | expandFail (s t id) : s.pc t = .mint1 id →
      Step s { s with minter := none, pc := upd s.pc t .idle }
  | mintChanged (s t id st') : s.pc t = .mint2 id → s.store.mark id true = some (st', true) →
      Step s { s with store := st', pc := upd s.pc t (.mint3 id), log := .acq t id s.quant :: s.log }
  | mintSame (s t id st') : s.pc t = .mint2 id → s.store.mark id true = some (st', false) →
      Step s { s with store := st', minter := none, pc := upd s.pc t (.hold id),
                      log := .acq t id s.quant :: s.log }
  | mintFail (s t id) : s.pc t = .mint2 id → Step s { s with minter := none, pc := upd s.pc t .idle }
  | mintAdd (s t id) : s.pc t = .mint3 id →
      Step s { s with total := s.total + 1, minter := none, pc := upd s.pc t (.hold id) }
  -- refill_fast_free_list
  | refillLock (s t) : s.pc t = .rLock → s.refillLock = none →
      Step s { s with refillLock := some t, pc := upd s.pc t .rCheck }
  | refillSkip (s t) : s.pc t = .rCheck → s.queue ≠ [] →
      Step s { s with refillLock := none, pc := upd s.pc t .nPop2 }
  | refillGo (s t) : s.pc t = .rCheck → s.queue = [] → Step s { s with pc := upd s.pc t .rRead }
  | refillRead (s t mb) : s.pc t = .rRead → s.minter = none → s.maxBlock = some mb →
      Step s { s with pc := upd s.pc t (.rScan s.next mb 0 false none) }
  | scanDone (s t nx mb id has blk) : s.pc t = .rScan nx mb id has blk → nx ≤ id →
      Step s { s with pc := upd s.pc t (.rFin has) }
  | scanEnd (s t nx mb id has) : s.pc t = .rScan nx mb id has none → mb < blockOf id →
      Step s { s with pc := upd s.pc t (.rFin has) }
  | scanLoad (s t nx mb id has blk) : s.pc t = .rScan nx mb id has none → id < nx → blockOf id ≤ mb →
      s.store (blockOf id) = some blk →
      Step s { s with pc := upd s.pc t (.rScan nx mb id has (some blk)) }
  | scanFail (s t nx mb id has) : s.pc t = .rScan nx mb id has none →
      Step s { s with refillLock := none, pc := upd s.pc t .idle }
  | scanFullByte (s t nx mb id has blk b) : s.pc t = .rScan nx mb id has (some blk) → id < nx →
      bitOf id = 0 → blk[byteOf id]? = some b → b = 0xff#8 →
      Step s { s with pc := upd s.pc t (.rScan nx mb (id + 8) has (keepBlk (id + 8) (some blk))) }
  | scanUsed (s t nx mb id has blk b) : s.pc t = .rScan nx mb id has (some blk) → id < nx →
      blk[byteOf id]? = some b → bitUsed b (bitOf id) = true →
      Step s { s with pc := upd s.pc t (.rScan nx mb (id + 1) has (keepBlk (id + 1) (some blk))) }
  | scanFree (s t nx mb id has blk b) : s.pc t = .rScan nx mb id has (some blk) → id < nx →
      blk[byteOf id]? = some b → bitUsed b (bitOf id) = false →
      Step s { s with hasFree := true, pc := upd s.pc t (.rPush nx mb id (some blk)) }
  | scanPush (s t nx mb id blk) : s.pc t = .rPush nx mb id blk → s.queue.length < fastSize →
      Step s { s with queue := s.queue ++ [id],
                      pc := upd s.pc t (.rScan nx mb (id + 1) true (keepBlk (id + 1) blk)) }
  | scanFull (s t nx mb id blk) : s.pc t = .rPush nx mb id blk → ¬ s.queue.length < fastSize →
      Step s { s with pc := upd s.pc t (.rFin true) }
  | refillTrue (s t) : s.pc t = .rFin true →
      Step s { s with refillLock := none, pc := upd s.pc t .nPop2 }
  | refillFalse (s t) : s.pc t = .rFin false →
      Step s { s with hasFree := false, refillLock := none, pc := upd s.pc t .mint0 }
  -- mark_free
  | callFree (s t id) : s.pc t = .idle → Step s { s with pc := upd s.pc t (.fCheck id) }
  | fCheckOk (s t id) : s.pc t = .fCheck id → s.minter = none → id < s.next →
      Step s { s with pc := upd s.pc t (.fMark id) }
  | fCheckErr (s t id) : s.pc t = .fCheck id → s.minter = none → ¬ id < s.next →
      Step s { s with pc := upd s.pc t .idle }
  | freeChanged (s t id st') : s.pc t = .fMark id → s.store.mark id false = some (st', true) →
      Step s { s with store := st', pc := upd s.pc t (.fSub id), log := .rel id :: s.log }
  | freeSame (s t id st') : s.pc t = .fMark id → s.store.mark id false = some (st', false) →
      Step s { s with store := st', pc := upd s.pc t .idle }
  | freeFail (s t id) : s.pc t = .fMark id → Step s { s with pc := upd s.pc t .idle }
  | sub (s t id) : s.pc t = .fSub id → Step s { s with total := s.total - 1, pc := upd s.pc t (.fPush id) }
  | push (s t id) : s.pc t = .fPush id → s.queue.length < fastSize →
      Step s { s with queue := s.queue ++ [id], pc := upd s.pc t .fFlag }
  | pushFull (s t id) : s.pc t = .fPush id → ¬ s.queue.length < fastSize →
      Step s { s with pc := upd s.pc t .fFlag }
  | flag (s t) : s.pc t = .fFlag → Step s { s with hasFree := true, pc := upd s.pc t .idle }
  -- enable_quantization (fsm.rs 526-534), enable_reuse (537-539)
  | enableQuant (s) : (∀ t, ¬ (s.pc t).inBarrier) → s.minter = none →
      Step s { s with maxBackfill := s.next - 1, quant := true }
  | enableReuse (s) : Step s { s with reuse := true }

/-- Reachability. -/
inductive Steps (s0 : St) : St → Prop
  | refl : Steps s0 s0
  | step {s s'} : Steps s0 s → Step s s' → Steps s0 s'

/-- `u32::MAX`. -/
def u32Max : Nat := 4294967295

/-- `FreeSpaceMap::new` on an empty store (fsm.rs 109-160), the write of the first block succeeding. -/
def St.fresh (quant reuse : Bool) : St where
  store := Store.put (fun _ => none) 0 zeroBlock
  hasFree := false
  queue := []
  next := 0
  maxBlock := some 0
  total := 0
  reuse := reuse
  maxBackfill := u32Max
  quant := quant
  minter := none
  refillLock := none
  pc := fun _ => .idle
  log := []

/-- Accumulator of the scan in `load_state`. -/
structure Scan where
  last : Option Nat
  total : Nat
  queue : List Nat

/-- The status bit of the `k`-th id of a block (`bit_used(block[k / 8], k % 8)`). -/
def blkBit (blk : List Byte) (k : Nat) : Bool :=
  match blk[k / 8]? with
  | none => false
  | some b => bitUsed b (k % 8)

/-- One id of the scan (fsm.rs 187-196); `last = none` is `-1`. The queue accepts `FAST_SIZE` ids. -/
def Scan.visit (blk : List Byte) (bid : Nat) (a : Scan) (k : Nat) : Scan :=
  let id := bid * blockIds + k
  if blkBit blk k then
    { a with last := some (max (a.last.getD 0) id), total := a.total + 1 }
  else if (match a.last with | none => false | some l => decide (id < l)) then
    { a with queue := if a.queue.length < fastSize then a.queue ++ [id] else a.queue }
  else a

/-- One block, ids from the highest to the lowest (the nested byte and bit loops, fsm.rs 184-199). -/
def Scan.block (blk : List Byte) (bid : Nat) (a : Scan) : Scan :=
  (List.range blockIds).reverse.foldl (Scan.visit blk bid) a

/-- `for block_id in (0..max_block_id).rev()` (fsm.rs 174-200): a failed read ends the loop. -/
def Scan.blocks (read : Nat → Option (List Byte)) : Nat → Scan → Scan
  | 0, a => a
  | n + 1, a =>
    match read n with
    | none => a
    | some blk => Scan.blocks read n (a.block blk n)

/-- `load_state` (fsm.rs 163-214), with `n` contiguous blocks found by the `exists_wid` loop; `read`
answers the block reads (a failed callback is `none`). -/
def St.load (store : Store) (read : Nat → Option (List Byte)) (n : Nat) (quant reuse : Bool) : St :=
  let a := Scan.blocks read n ⟨none, 0, []⟩
  { store := store
    hasFree := !a.queue.isEmpty
    queue := a.queue
    next := match a.last with | none => 0 | some l => l + 1
    maxBlock := some (n - 1)
    total := a.total
    reuse := reuse
    maxBackfill := u32Max
    quant := quant
    minter := none
    refillLock := none
    pc := fun _ => .idle
    log := [] }

/-- The `exists_wid` loop (fsm.rs 164-171) found `n` blocks. -/
def Store.contiguous (s : Store) (n : Nat) : Prop := (∀ b, b < n → (s b).isSome) ∧ s n = none

/-- The inner loops of `visit_used` (fsm.rs 511-526) over the bytes of one block, `f` always continuing:
the ids visited and the next id. -/
def visitBytes : List Byte → Nat → List Nat × Nat
  | [], id => ([], id)
  | b :: bs, id =>
    let r := visitBytes bs (id + 8)
    if b = 0#8 then r
    else ((List.range 8).filterMap (fun i => if bitUsed b i then some (id + i) else none) ++ r.1, r.2)

/-- `visit_used` (fsm.rs 493-530): the blocks `k, k+1, ..., k+n-1`; `none` is the read error. -/
def visitBlocks (s : Store) : Nat → Nat → Nat → Option (List Nat)
  | _, 0, _ => some []
  | k, n + 1, id =>
    match s k with
    | none => none
    | some blk =>
      let r := visitBytes blk id
      match visitBlocks s (k + 1) n r.2 with
      | none => none
      | some l => some (r.1 ++ l)

/-- `visit_used` when the map has blocks up to `mb`. -/
def visitUsed (s : Store) (mb : Nat) : Option (List Nat) := visitBlocks s 0 (mb + 1) 0

end Verif.Garnet
