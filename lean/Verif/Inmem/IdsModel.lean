import Verif.Inmem.EbrModel

/-! # Id map and provider-level inserts and deletes of `diskann-inmem`

Model of `ids.rs` and of `Provider::{set_element, delete}` (`provider.rs`).

External ids are natural numbers (the code is generic over hashable ids; only equality matters). `DashMap` is a
finite map with one lock per key (coarser shard locks only remove interleavings). The backward table is the
`Vec` of 1024-entry shards, indexed by (shard, offset); indexing past the allocated shards is the value `none`
of the outer `Option` (a panic). -/

namespace Verif.Inmem

/-- `ids.rs` 16. -/
def SHARD_SIZE : Nat := 1024

/-- `ids.rs` 151-157 `IdMap::shard`. -/
def shardOf (i : Nat) : Nat × Nat := (i / SHARD_SIZE, i % SHARD_SIZE)

/-- `ids.rs` 19-32 `IdMap`; `backward outer inner`. -/
structure Maps where
  forward : Nat → Option Nat
  backward : Nat → Nat → Option Nat
  capacity : Nat

/-- `ids.rs` 38-51 `IdMap::new`. -/
def Maps.new (capacity : Nat) : Maps := ⟨fun _ => none, fun _ _ => none, capacity⟩

/-- Number of allocated shards (`ids.rs` 43). -/
def Maps.numShards (m : Maps) : Nat := (m.capacity + SHARD_SIZE - 1) / SHARD_SIZE

/-- `self.backward[outer]...[inner]`; `none` = index panic. -/
def Maps.back (m : Maps) (i : Nat) : Option (Option Nat) :=
  if (shardOf i).1 < m.numShards then some (m.backward (shardOf i).1 (shardOf i).2) else none

/-- `shard[inner] = v`. -/
def Maps.setBack (m : Maps) (i : Nat) (v : Option Nat) : Maps :=
  { m with backward := upd m.backward (shardOf i).1 (upd (m.backward (shardOf i).1) (shardOf i).2 v) }

inductive InsertError
  | outOfBounds
  | externalExists
  | internalExists
deriving DecidableEq, Repr

/-- `ids.rs` 59-88 `IdMap::insert`: new state and result; `none` = panic. -/
def Maps.insert (m : Maps) (ext int : Nat) : Option (Maps × Except InsertError Unit) :=
  if m.capacity ≤ int then some (m, .error .outOfBounds)
  else
    match m.forward ext with
    | some _ => some (m, .error .externalExists)
    | none =>
      match m.back int with
      | none => none
      | some (some _) => some (m, .error .internalExists)
      | some none =>
        let m := m.setBack int (some ext)
        some ({ m with forward := upd m.forward ext (some int) }, .ok ())

/-- `ids.rs` 98-106 `to_internal`. -/
def Maps.toInternal (m : Maps) (ext : Nat) : Option Nat := m.forward ext

/-- `ids.rs` 108-117 `to_external`; outer `none` = panic. -/
def Maps.toExternal (m : Maps) (int : Nat) : Option (Option Nat) :=
  if m.capacity ≤ int then some none else m.back int

/-- `ids.rs` 123-149 `occupied_entry`: `some (some i)` = an entry for internal id `i`, `some none` = no mapping,
`none` = the assertion (or an index) failed. -/
def Maps.occupiedEntry (m : Maps) (ext : Nat) : Option (Option Nat) :=
  match m.forward ext with
  | none => some none
  | some i =>
    match m.back i with
    | some (some _) => some (some i)
    | _ => none

/-- `ids.rs` 196 `self.forward.remove()`. -/
def Maps.removeForward (m : Maps) (ext : Nat) : Maps := { m with forward := upd m.forward ext none }

/-- `ids.rs` 195-198 `Entry::delete`. -/
def Maps.deleteEntry (m : Maps) (ext int : Nat) : Maps := (m.removeForward ext).setBack int none

/-! ## Provider: concurrent inserts and deletes -/

/-- Where a call is. `set…` = `set_element`, `del…` = `delete`. -/
inductive PPC
  | idle
  /-- an assertion failed or an index was out of bounds -/
  | panicked
  /-- owns slot `i`, payload not yet encoded (provider.rs 348-352) -/
  | setOwned (ext i : Nat)
  /-- payload encoded, mapping not yet inserted (provider.rs 355-356) -/
  | setEncoded (ext i : Nat)
  /-- mapping inserted, slot not yet published (provider.rs 360) -/
  | setMapped (ext i : Nat)
  /-- holds the entry (provider.rs 279-284) -/
  | delEntry (ext i : Nat)
  /-- slot retired (provider.rs 286-287) -/
  | delRetired (ext i : Nat)
  /-- forward mapping removed, backward not yet (ids.rs 196-197); the forward lock is already released -/
  | delForward (ext i : Nat)
deriving DecidableEq, Repr

/-- Provider state. `keyLock e` / `shardLock k`: the call holding the `DashMap` entry of external id `e` / the
write lock of backward shard `k` between steps. -/
structure PState where
  maps : Maps
  tags : Nat → Nat
  keyLock : Nat → Option Nat
  shardLock : Nat → Option Nat
  pcs : Nat → PPC

/-- `Provider::new` (provider.rs 105-131). -/
def PState.init (capacity : Nat) : PState :=
  ⟨Maps.new capacity, fun _ => AVAILABLE, fun _ => none, fun _ => none, fun _ => .idle⟩

inductive PChoice
  /-- `set_element(ext)`; `Store::acquire` hands out slot `i` -/
  | set (ext i : Nat)
  /-- `set_element(ext)` with no slot to be had -/
  | setNoSlot (ext : Nat)
  /-- does the layer accept the vector? -/
  | encode (ok : Bool)
  /-- `delete(ext)` -/
  | delete (ext : Nat)
  /-- `Store::retire`; `false` if no guard is available -/
  | retire (guard : Bool)
  | go
  /-- environment: some drain reclaims retired slot `i` -/
  | reclaim (i : Nat)
deriving DecidableEq, Repr

/-- Observable results. -/
inductive PEvent
  | setOk (ext i : Nat)
  | setErr (ext : Nat)
  | delOk (ext i : Nat)
  | delErr (ext : Nat)
deriving DecidableEq, Repr

/-- One step of call `a`; `none` if not applicable (or blocked on a lock). The store itself is taken as atomic
here (that is C19–C21): `acquire` needs an available slot, `retire` needs a published one, a retired slot becomes
available again at some later time. `provider.rs` 274-294 `delete`, 341-372 `set_element`. -/
def pact (a : Nat) (c : PChoice) (s : PState) : Option (PState × Option PEvent) :=
  let goto (s : PState) (pc : PPC) (ev : Option PEvent) : Option (PState × Option PEvent) :=
    some ({ s with pcs := upd s.pcs a pc }, ev)
  match s.pcs a, c with
  | .idle, .reclaim i =>
    if s.tags i = RETIRING then goto { s with tags := upd s.tags i AVAILABLE } .idle none else none
  | .idle, .set e i =>
    if s.tags i = AVAILABLE ∧ i < s.maps.capacity then
      goto { s with tags := upd s.tags i OWNED } (.setOwned e i) none
    else none
  | .idle, .setNoSlot e => goto s .idle (some (.setErr e))
  | .setOwned e i, .encode ok =>
    if ok then goto s (.setEncoded e i) none
    -- `?` drops the slot, which makes it available again (store.rs 785-791)
    else goto { s with tags := upd s.tags i AVAILABLE } .idle (some (.setErr e))
  | .setEncoded e i, .go =>
    if s.keyLock e = none ∧ s.shardLock (shardOf i).1 = none then
      match s.maps.insert e i with
      | none => goto s .panicked none
      | some (m, .error _) => goto { s with maps := m, tags := upd s.tags i AVAILABLE } .idle (some (.setErr e))
      | some (m, .ok _) => goto { s with maps := m } (.setMapped e i) none
    else none
  | .setMapped e i, .go => goto { s with tags := upd s.tags i PUBLISHED } .idle (some (.setOk e i))
  | .idle, .delete e =>
    if s.keyLock e = none then
      match s.maps.occupiedEntry e with
      | none => goto s .panicked none
      | some none => goto s .idle (some (.delErr e))
      | some (some i) =>
        if s.shardLock (shardOf i).1 = none then
          goto { s with keyLock := upd s.keyLock e (some a), shardLock := upd s.shardLock (shardOf i).1 (some a) }
            (.delEntry e i) none
        else none
    else none
  | .delEntry e i, .retire guard =>
    if guard ∧ s.tags i = PUBLISHED then goto { s with tags := upd s.tags i RETIRING } (.delRetired e i) none
    else
      -- dropping the entry releases both locks
      goto { s with keyLock := upd s.keyLock e none, shardLock := upd s.shardLock (shardOf i).1 none }
        .idle (some (.delErr e))
  | .delRetired e i, .go =>
    goto { s with maps := s.maps.removeForward e, keyLock := upd s.keyLock e none } (.delForward e i) none
  | .delForward e i, .go =>
    goto { s with maps := s.maps.setBack i none, shardLock := upd s.shardLock (shardOf i).1 none }
      .idle (some (.delOk e i))
  | _, _ => none

/-- Reachable provider states and the results returned so far, oldest first. -/
inductive PRun (capacity : Nat) : PState → List PEvent → Prop
  | start : PRun capacity (PState.init capacity) []
  | step {s s' : PState} {es : List PEvent} {ev : Option PEvent} (a : Nat) (c : PChoice) :
      PRun capacity s es → pact a c s = some (s', ev) → PRun capacity s' (es ++ ev.toList)

/-- Run a fixed schedule (for examples). -/
def prunSchedule (s : PState) : List (Nat × PChoice) → Option (PState × List PEvent)
  | [] => some (s, [])
  | (a, c) :: rest =>
    match pact a c s with
    | none => none
    | some (s', ev) => (prunSchedule s' rest).map fun r => (r.1, ev.toList ++ r.2)

end Verif.Inmem
