import Mathlib.Logic.Function.Basic
import Verif.Runbook.Model

/-! # Model of the layer that maps tags to slots

`diskann-benchmark/src/utils/streaming.rs`, `diskann-benchmark/src/index/streaming/managed.rs` and the data layer above,
`diskann-benchmark-core/src/streaming/executors/bigann/withdata.rs`. The index below is a store with one vector per slot. -/

namespace Verif.Runbook

/-- The tags of a range, in order. -/
def tagsOf (r : Rng) : List Nat := List.range' r.lo (r.hi - r.lo)

/-- `TagSlotManager`, streaming.rs 13-24. Hash maps are functions, the set of deleted slots a list without duplicates. -/
structure Manager where
  empty : List Nat
  deleted : List Nat
  slot : Nat → Option Nat
  tag : Nat → Option Nat
  capacity : Nat

/-- `TagSlotManager::new`, streaming.rs 28-36. The subtraction panics on 0. -/
def Manager.new (cap : Nat) : Out Manager :=
  if cap = 0 then .panic
  else .ok ⟨List.range ((cap - 1) % 2 ^ 32), [], fun _ => none, fun _ => none, cap⟩

/-- `get_n_empty_slots`, streaming.rs 42-56. -/
def Manager.take (m : Manager) (n : Nat) : Option (List Nat × Manager) :=
  if m.empty.length < n then none else some (m.empty.take n, { m with empty := m.empty.drop n })

/-- `num_active`, streaming.rs 64-66; the slots never outnumber the capacity. -/
def Manager.numActive (m : Manager) : Nat := m.capacity - m.empty.length

/-- `find_slots_by_tags`, streaming.rs 77-89. -/
def Manager.findSlots (m : Manager) (tags : List Nat) : Option (List Nat) := collect m.slot tags

/-- One round of `assign_slots_to_tags`, streaming.rs 108-111. -/
def Manager.assignOne (m : Manager) (ts : Nat × Nat) : Manager :=
  { m with slot := Function.update m.slot ts.1 (some ts.2), tag := Function.update m.tag ts.2 (some ts.1) }

/-- `assign_slots_to_tags`, streaming.rs 95-114. -/
def Manager.assign (m : Manager) (tags slots : List Nat) : Option Manager :=
  if tags.length = slots.length then some ((tags.zip slots).foldl Manager.assignOne m) else none

/-- Insertion into a set. -/
def setInsert (s : Nat) (l : List Nat) : List Nat := if s ∈ l then l else l ++ [s]

/-- `mark_tags_deleted`, streaming.rs 120-132. -/
def Manager.mark (m : Manager) : List Nat → Option Manager
  | [] => some m
  | t :: ts =>
    match m.slot t with
    | some s => Manager.mark { m with deleted := setInsert s m.deleted } ts
    | none => none

/-- `recycle_tags`, streaming.rs 138-152. -/
def Manager.recycle (m : Manager) : List Nat → Option Manager
  | [] => some m
  | t :: ts =>
    match m.slot t with
    | some s => Manager.recycle { m with slot := Function.update m.slot t none, tag := Function.update m.tag s none,
                                         empty := m.empty ++ [s] } ts
    | none => none

/-- One round of `consolidate`, streaming.rs 165-172. -/
def Manager.consolidateOne (m : Manager) (s : Nat) : Manager :=
  match m.tag s with
  | some t => { m with tag := Function.update m.tag s none, slot := Function.update m.slot t none, empty := m.empty ++ [s] }
  | none => { m with empty := m.empty ++ [s] }

/-- `consolidate`, streaming.rs 162-173. The order in which the set is drained is a parameter. -/
def Manager.consolidate (drain : List Nat → List Nat) (m : Manager) : Manager :=
  (drain m.deleted).foldl Manager.consolidateOne { m with deleted := [] }

/-- `SlotReclaim`, managed.rs 22-32. The threshold is the function from the number of active slots to the limit,
managed.rs 175-176. -/
inductive Reclaim where
  | immediate
  | deferred (limit : Nat → Nat)

variable {V : Type}

/-- What the index below holds: a vector per slot and whether it is marked as deleted. -/
abbrev Store (V : Type) := Nat → Option (V × Bool)

/-- What a stage lets an observer see. A search shows the vectors behind the ground truth it is given. -/
inductive Seen (V : Type) where
  | done
  | maintained
  | found (rows : List (List (Option V)))
deriving DecidableEq, Repr

/-- Writing a vector. -/
def Store.put (c : Store V) (sv : Nat × V) : Store V := Function.update c sv.1 (some (sv.2, false))

/-- Forgetting a vector, for the bf-tree. -/
def Store.drop (c : Store V) (s : Nat) : Store V := Function.update c s none

/-- Marking a vector as deleted, for the in-memory index. -/
def Store.flag (c : Store V) (s : Nat) : Store V :=
  match c s with
  | some (v, _) => Function.update c s (some (v, true))
  | none => c

/-- A slot holds a vector that is not deleted. -/
def Store.live (c : Store V) (s : Nat) : Bool :=
  match c s with
  | some (_, false) => true
  | _ => false

/-- The vector a search can find in a slot. -/
def Store.vector (c : Store V) (s : Nat) : Option V :=
  match c s with
  | some (v, false) => some v
  | _ => none

/-- Insertion into the index below (`ManagedStream::insert`, managed.rs 54): distinct free slots, as many as vectors. -/
def Store.insert (c : Store V) (vs : List V) (slots : List Nat) : Out (Store V) :=
  if vs.length = slots.length ∧ slots.Nodup ∧ ∀ s ∈ slots, (c s).isNone = true then .ok ((slots.zip vs).foldl Store.put c)
  else .err

/-- Replacement in the index below (managed.rs 57): distinct live slots. -/
def Store.replace (c : Store V) (vs : List V) (slots : List Nat) : Out (Store V) :=
  if vs.length = slots.length ∧ slots.Nodup ∧ ∀ s ∈ slots, c.live s = true then .ok ((slots.zip vs).foldl Store.put c)
  else .err

/-- Deletion in the index below (managed.rs 60): distinct live slots. -/
def Store.delete (r : Reclaim) (c : Store V) (slots : List Nat) : Out (Store V) :=
  if slots.Nodup ∧ ∀ s ∈ slots, c.live s = true then
    match r with
    | .immediate => .ok (slots.foldl Store.drop c)
    | .deferred _ => .ok (slots.foldl Store.flag c)
  else .err

/-- Maintenance of the index below (managed.rs 63, full_precision.rs 146-176): deleted slots are released. -/
def Store.maintain (c : Store V) : Store V := fun s =>
  match c s with
  | some (v, false) => some (v, false)
  | _ => none

/-- `Matrix::subview(..).unwrap()`, withdata.rs 88, 93. `none` is a panic. -/
def subview (data : List V) (r : Rng) : Option (List V) :=
  if r.lo ≤ r.hi ∧ r.hi ≤ data.length then some ((data.drop r.lo).take (r.hi - r.lo)) else none

/-- An option as an outcome. -/
def orErr {α : Type} : Option α → Out α
  | some a => .ok a
  | none => .err

/-- Sequencing outcomes. -/
def Out.bind {α β : Type} : Out α → (α → Out β) → Out β
  | .ok a, f => f a
  | .err, _ => .err
  | .panic, _ => .panic

/-- `Managed::insert` after `WithData::insert`, managed.rs 126-135, withdata.rs 87-90. -/
def managedInsert (data : List V) (s : Manager × Store V) (offsets ids : Rng) : Out ((Manager × Store V) × Seen V) :=
  match subview data offsets with
  | none => .panic
  | some vs =>
    (orErr (s.1.take (ids.hi - ids.lo))).bind fun got =>
      (s.2.insert vs got.1).bind fun c =>
        (orErr (got.2.assign (tagsOf ids) got.1)).bind fun m => .ok ((m, c), .done)

/-- `Managed::replace` after `WithData::replace`, managed.rs 137-145, withdata.rs 92-95. -/
def managedReplace (data : List V) (s : Manager × Store V) (offsets ids : Rng) : Out ((Manager × Store V) × Seen V) :=
  match subview data offsets with
  | none => .panic
  | some vs =>
    (orErr (s.1.findSlots (tagsOf ids))).bind fun slots =>
      (s.2.replace vs slots).bind fun c => .ok ((s.1, c), .done)

/-- Reclaiming the slots of deleted tags, managed.rs 150-154. -/
def Manager.reclaim (r : Reclaim) (m : Manager) (tags : List Nat) : Option Manager :=
  match r with
  | .immediate => m.recycle tags
  | .deferred _ => m.mark tags

/-- `Managed::delete`, managed.rs 147-156. -/
def managedDelete (r : Reclaim) (s : Manager × Store V) (ids : Rng) : Out ((Manager × Store V) × Seen V) :=
  (orErr (s.1.findSlots (tagsOf ids))).bind fun slots =>
    (s.2.delete r slots).bind fun c =>
      (orErr (s.1.reclaim r (tagsOf ids))).bind fun m => .ok ((m, c), .done)

/-- `Managed::search` after `WithData::search`, managed.rs 99-124, withdata.rs 82-85: the ground truth is loaded and
translated to slots. -/
def managedSearch (gt : List Char → Option (List (List Nat))) (s : Manager × Store V) (path : List Char) :
    Out ((Manager × Store V) × Seen V) :=
  (orErr (gt path)).bind fun rows =>
    (orErr (collect s.1.findSlots rows)).bind fun slots => .ok (s, .found (slots.map fun row => row.map s.2.vector))

/-- `Managed::maintain`, managed.rs 158-162. -/
def managedMaintain (drain : List Nat → List Nat) (s : Manager × Store V) : Out ((Manager × Store V) × Seen V) :=
  .ok ((s.1.consolidate drain, s.2.maintain), .maintained)

/-- `Managed::needs_maintenance`, managed.rs 164-174. -/
def managedNeeds (r : Reclaim) (m : Manager) : Bool :=
  match r with
  | .immediate => false
  | .deferred limit => decide (m.deleted.length > limit m.numActive)

/-- `impl Stream for Managed` below `WithData`. -/
def managed (data : List V) (gt : List Char → Option (List (List Nat))) (r : Reclaim) (drain : List Nat → List Nat) :
    Stream (Manager × Store V) (Seen V) where
  needs s := managedNeeds r s.1
  maintain := managedMaintain drain
  search := managedSearch gt
  insert := managedInsert data
  replace := managedReplace data
  delete := managedDelete r

end Verif.Runbook
