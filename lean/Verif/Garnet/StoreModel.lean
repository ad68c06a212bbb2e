/-
Model of the records that a Garnet vector set keeps per element, and of the calls that insert, remove and
annotate elements, with failing storage calls, crashes and restarts.

Source: /repo/diskann-garnet/src/provider.rs, lib.rs, dyn_index.rs

Simplifications: calls are sequential; ids are natural numbers without overflow; the free space map is the set
of used ids and the next id to mint (its own blocks are C31 and C32), the id it hands out is any id that is not
in use; the index already has its start point, which owns id 0; the graph steps of an insertion or a removal
touch none of the records below and are one flag: they succeed or fail.  A storage call that reports failure
has changed nothing.  A crash in the middle of a call is the case where every later storage call of that call
fails.
-/
namespace Verif.Garnet.Store

/-- Change one entry of a table. -/
def upd {α β : Type} [DecidableEq α] (f : α → β) (k : α) (v : β) : α → β := fun x => if x = k then v else f x

/-- The records of one vector set (garnet.rs 24-33): the terms `Vector`, `Quantized`, `ExtMap`, `IntMap` and
`Attributes`, and the free space map (fsm.rs 70-107): ids marked used, and `next_id`. -/
structure State (E V C : Type) where
  used : Nat → Bool
  next : Nat
  vec : Nat → Option V
  code : Nat → Option C
  ext : Nat → Option E
  int : E → Option Nat
  attr : Nat → Option (List UInt8)

/-- What `fsm.next_id` does (fsm.rs 334-380): fail, possibly after having moved `next_id`, or mark an id used. -/
inductive Alloc
  | fails (moved : Bool)
  | gives (id : Nat)

/-- Which steps of an insertion succeed: the writes of the four records, freeing the id again, the graph part
of the insertion, and the write of the attributes. -/
structure InsertFaults where
  vec : Bool
  code : Bool
  ext : Bool
  int : Bool
  free : Bool
  graph : Bool
  attr : Bool

/-- Which steps of a removal succeed: the deletions of the five records, freeing the id, the graph part. -/
structure RemoveFaults where
  ext : Bool
  int : Bool
  attr : Bool
  vec : Bool
  code : Bool
  free : Bool
  graph : Bool

variable {E V C : Type} [DecidableEq E]

/-- Mark an id used; a minted id moves `next_id` (fsm.rs 371-377, 218-250). -/
def State.take (s : State E V C) (i : Nat) : State E V C :=
  { s with used := upd s.used i true, next := max s.next (i + 1) }

/-- `mark_free` (fsm.rs 205-209). -/
def State.free (s : State E V C) (i : Nat) (ok : Bool) : State E V C :=
  if ok then { s with used := upd s.used i false } else s

/-- `write_iid` of the vector (provider.rs 1037-1040). -/
def State.putVec (s : State E V C) (i : Nat) (v : V) : State E V C := { s with vec := upd s.vec i (some v) }
/-- `write_iid` of the quantized vector (provider.rs 1052-1056). -/
def State.putCode (s : State E V C) (i : Nat) (c : C) : State E V C := { s with code := upd s.code i (some c) }
/-- `write_iid` of the external id (provider.rs 1058-1061). -/
def State.putExt (s : State E V C) (i : Nat) (e : E) : State E V C := { s with ext := upd s.ext i (some e) }
/-- `write_eid` of the internal id (provider.rs 1062-1069). -/
def State.putInt (s : State E V C) (e : E) (i : Nat) : State E V C := { s with int := upd s.int e (some i) }
/-- `write_iid` of the attributes (provider.rs 434-437). -/
def State.putAttr (s : State E V C) (i : Nat) (a : List UInt8) : State E V C :=
  { s with attr := upd s.attr i (some a) }

/-- The closure `insert` of `set_element` (provider.rs 1036-1071): the state it leaves and whether it
succeeded.  `quantize` is the quantizer to use, if the id has to be quantized: it can fail to compress. -/
def writeRecords (quantize : Option (V → Option C)) (s : State E V C) (e : E) (v : V) (i : Nat)
    (f : InsertFaults) : State E V C × Bool :=
  if !f.vec then (s, false)
  else
    let s := s.putVec i v
    let (s, ok) := match quantize with
      | none => (s, true)
      | some q =>
        match q v with
        | none => (s, false)
        | some c => if f.code then (s.putCode i c, true) else (s, false)
    if !ok then (s, false)
    else if !f.ext then (s, false)
    else
      let s := s.putExt i e
      if !f.int then (s, false) else (s.putInt e i, true)

/-- `set_element` (provider.rs 1018-1083): nothing that was written is removed after a failure. -/
def setElement (quantize : Option (V → Option C)) (s : State E V C) (e : E) (v : V) (a : Alloc)
    (f : InsertFaults) : State E V C × Bool :=
  match a with
  | .fails moved => ((if moved then { s with next := s.next + 1 } else s), false)
  | .gives i =>
    let (s, ok) := writeRecords quantize (s.take i) e v i f
    if ok then (s, true) else (s.free i f.free, false)

/-- `set_attributes` (provider.rs 417-442). -/
def setAttributes (s : State E V C) (e : E) (a : List UInt8) (ok : Bool) : State E V C × Bool :=
  match s.int e with
  | none => (s, false)
  | some i => if ok then (s.putAttr i a, true) else (s, false)

/-- `delete_attributes` (provider.rs 444-467): deleting what is not there fails. -/
def deleteAttributes (s : State E V C) (e : E) (ok : Bool) : State E V C × Bool :=
  match s.int e with
  | none => (s, false)
  | some i => if ok then ({ s with attr := upd s.attr i none }, (s.attr i).isSome) else (s, false)

/-- `vector_id_exists` (provider.rs 469-475), `is_free` (fsm.rs 267-295). -/
def exists? (s : State E V C) (e : E) : Bool :=
  match s.int e with
  | none => false
  | some i => decide (i < s.next) && s.used i

/-- `vector_iid_exists` (provider.rs 477-479). -/
def idExists? (s : State E V C) (i : Nat) : Bool := decide (i < s.next) && s.used i

/-- `insert` of lib.rs (484-544) and of `DiskANNIndex` (graph/index.rs 226-340): `set_element`, the graph part,
the attributes (an empty record if none are given).  The answer is whether it reports success. -/
def insert (quantize : Option (V → Option C)) (s : State E V C) (e : E) (v : V) (attrs : List UInt8)
    (a : Alloc) (f : InsertFaults) : State E V C × Bool :=
  let (s, ok) := setElement quantize s e v a f
  if !ok then (s, false)
  else if !f.graph then (s, false)
  else setAttributes s e attrs f.attr

/-- `delete` (provider.rs 1086-1115): all deletions are tried, the id is freed, and a failed deletion of a
mapping or of the vector is reported afterwards. -/
def delete (s : State E V C) (e : E) (f : RemoveFaults) : State E V C × Bool :=
  match s.int e with
  | none => (s, false)
  | some i =>
    let ok := (f.ext && (s.ext i).isSome) && f.int && (f.vec && (s.vec i).isSome)
    let s := if f.ext then { s with ext := upd s.ext i none } else s
    let s := if f.int then { s with int := upd s.int e none } else s
    let s := if f.attr then { s with attr := upd s.attr i none } else s
    let s := if f.vec then { s with vec := upd s.vec i none } else s
    let s := if f.code then { s with code := upd s.code i none } else s
    if decide (i < s.next) && f.free then (s.free i true, ok) else (s, false)

/-- `remove` of lib.rs (814-832) and `inplace_delete` (graph/index.rs 1527-1580): the element has to exist; the
graph part follows the deletion of the records. -/
def remove (s : State E V C) (e : E) (f : RemoveFaults) : State E V C × Bool :=
  if !exists? s e then (s, false)
  else
    let (s, ok) := delete s e f
    (s, ok && f.graph)

/-- `set_attribute` of lib.rs (647-682): an empty string deletes the attributes. -/
def setAttribute (s : State E V C) (e : E) (a : List UInt8) (ok : Bool) : State E V C × Bool :=
  if !exists? s e then (s, false)
  else if !a.isEmpty then setAttributes s e a ok
  else deleteAttributes s e ok

/-- The calls, with what goes wrong in them.  `restart` loads the free space map again: `next_id` is any
number above all used ids (fsm.rs 151-203; it is the least one). -/
inductive Call (E V C : Type)
  | insert (quantize : Option (V → Option C)) (e : E) (v : V) (attrs : List UInt8) (a : Alloc) (f : InsertFaults)
  | remove (e : E) (f : RemoveFaults)
  | setAttribute (e : E) (attrs : List UInt8) (ok : Bool)
  | restart (next : Nat)

/-- One call: the new state and the answer. -/
def step (s : State E V C) : Call E V C → State E V C × Bool
  | .insert q e v attrs a f => insert q s e v attrs a f
  | .remove e f => remove s e f
  | .setAttribute e a ok => setAttribute s e a ok
  | .restart n => ({ s with next := n }, true)

/-- What the allocator and a restart can do in a state (C31, C32): an id that is handed out is not in use, and is
minted (the next id) or was minted before; a restart moves `next_id` above all used ids. -/
def Allowed (s : State E V C) : Call E V C → Prop
  | .insert _ _ _ _ (.gives i) _ => s.used i = false ∧ i ≤ s.next
  | .restart n => ∀ i, s.used i = true → i < n
  | _ => True

/-- A run of calls, each allowed in the state it is made in. -/
inductive Run : State E V C → List (Call E V C) → State E V C → Prop
  | nil (s) : Run s [] s
  | cons {s c cs t} : Allowed s c → Run (step s c).1 cs t → Run s (c :: cs) t

/-- The state after the start point was set (provider.rs 369-409): id 0 is used and no element exists.  The
stored start vector and its code are arbitrary. -/
def init (v : V) (c : Option C) : State E V C where
  used := fun i => decide (i = 0)
  next := 1
  vec := fun i => if i = 0 then some v else none
  code := fun i => if i = 0 then c else none
  ext := fun _ => none
  int := fun _ => none
  attr := fun _ => none

/-- The vector of an element (`to_internal_id` and `get_full_vector`, dyn_index.rs 145-158). -/
def vectorOf (s : State E V C) (e : E) : Option V := (s.int e).bind s.vec

/-- The attributes of an element as a filter sees them (provider.rs 1223-1245): no record counts as the empty
string. -/
def attrsOf (s : State E V C) (e : E) : List UInt8 := (((s.int e).bind s.attr).getD [])

/-- The name under which a search reports the vector stored under an internal id (`CopyExternalIds`,
provider.rs 1418-1448): none if it has no vector or no external id. -/
def reported (s : State E V C) (i : Nat) : Option (E × V) :=
  match s.ext i, s.vec i with
  | some e, some v => some (e, v)
  | _, _ => none

end Verif.Garnet.Store
