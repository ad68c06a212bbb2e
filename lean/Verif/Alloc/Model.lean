/-
Model of the allocators and of the owning pointer of the quantization crate.

Source: /repo/diskann-quantization/src/alloc/bump.rs, alloc/poly.rs, num.rs

Simplifications: addresses and sizes are natural numbers below `2 ^ 64` where the code checks for overflow; the buffer
of a bump allocator is a range of addresses the system handed out, so it does not wrap around.  Threads interleave;
relaxed accesses to the one atomic variable are sequentially consistent.  Values are names, and what happens to them is
a log of events.
-/
namespace Verif.Alloc

/-- `usize::MAX + 1`. -/
def word : Nat := 2 ^ 64

/-- A size and an alignment. -/
structure Layout where
  size : Nat
  align : Nat
deriving DecidableEq, Repr

/-- `PowerOfTwo::arg_mod` (num.rs 220-222). -/
def argMod (a lhs : Nat) : Nat := lhs &&& (a - 1)

/-- `PowerOfTwo::arg_align_offset` (num.rs 231-234). -/
def alignOffset (a lhs : Nat) : Nat :=
  let m := argMod a lhs
  if m = 0 then 0 else a - m

/-- `PowerOfTwo::arg_checked_next_multiple_of` (num.rs 238-241). -/
def nextMultiple (a lhs : Nat) : Option Nat :=
  let x := lhs + alignOffset a lhs
  if x < word then some x else none

/-- `next` (bump.rs 93-98). -/
def next (base offset : Nat) (l : Layout) : Option Nat :=
  match nextMultiple l.align (base + offset) with
  | none => none
  | some x => if x - base + l.size < word then some (x - base + l.size) else none

/-- `compute_next` (bump.rs 116-123). -/
def computeNext (base cap head : Nat) (l : Layout) : Option Nat :=
  match next base head l with
  | none => none
  | some h => if h > cap then none else some h

/-- Where a call of `allocate` is (bump.rs 109-161): before loading the head, before exchanging it, or done: with an
address, or an error. -/
inductive Pc
  | load
  | cas (old new : Nat)
  | ok (ptr : Nat)
  | err
deriving DecidableEq, Repr

/-- A call. -/
structure Call where
  layout : Layout
  pc : Pc
deriving DecidableEq, Repr

/-- The head, and all calls so far. -/
structure State where
  head : Nat
  calls : List Call
deriving DecidableEq, Repr

/-- After a head was read (bump.rs 129, 139-140). -/
def tryAt (base cap head : Nat) (l : Layout) : Pc :=
  match computeNext base cap head l with
  | none => .err
  | some n => .cas head n

/-- One step of a call (bump.rs 128-161). -/
def stepCall (base cap head : Nat) (c : Call) : Nat × Call :=
  match c.pc with
  | .load => (head, { c with pc := tryAt base cap head c.layout })
  | .cas old new =>
    if head = old then
      (new, { c with pc := .ok (base + old + alignOffset c.layout.align (base + old)) })
    else (head, { c with pc := tryAt base cap head c.layout })
  | .ok p => (head, { c with pc := .ok p })
  | .err => (head, { c with pc := .err })

/-- A new call, or a step of a call. -/
inductive Event
  | call (l : Layout)
  | run (i : Nat)
deriving DecidableEq, Repr

/-- One event. -/
def step (base cap : Nat) (s : State) : Event → State
  | .call l => { s with calls := s.calls ++ [⟨l, .load⟩] }
  | .run i =>
    match s.calls[i]? with
    | none => s
    | some c =>
      let (h, c) := stepCall base cap s.head c
      ⟨h, s.calls.set i c⟩

/-- A new allocator (bump.rs 54-80): the head is zero. -/
def init : State := ⟨0, []⟩

/-- A history. -/
def run (base cap : Nat) (es : List Event) : State := es.foldl (step base cap) init

/-! ### The owning pointer -/

/-- What happens: memory is taken or given back, a value is made or dropped. -/
inductive Ev (V : Type)
  | alloc (size : Nat)
  | free (size : Nat)
  | make (v : V)
  | drop (v : V)
deriving DecidableEq, Repr

variable {V : Type}

/-- An owning pointer: the values it points to, and the size of its memory. -/
structure Poly (V : Type) where
  vals : List V
  size : Nat

/-- `Poly::new` (poly.rs 197-219) for a value of `size` bytes, which the caller made; `room`: whether the allocator
succeeds.  A value without size is not moved anywhere, so it is dropped when the call ends; so is a value for which
there is no room. -/
def polyNew (size : Nat) (v : V) (room : Bool) : Option (Poly V) × List (Ev V) :=
  if size = 0 then (some ⟨[v], 0⟩, [.make v, .drop v])
  else if room then (some ⟨[v], size⟩, [.make v, .alloc size])
  else (none, [.make v, .drop v])

/-- `Poly::new_with` (poly.rs 228-262): the memory is taken first; `made`: the value, unless its constructor fails. -/
def polyNewWith (size : Nat) (made : Option V) (room : Bool) : Option (Poly V) × List (Ev V) :=
  if size ≠ 0 ∧ room = false then (none, [])
  else
    let taken : List (Ev V) := if size = 0 then [] else [.alloc size]
    match made with
    | none => (none, taken ++ (if size = 0 then [] else [.free size]))
    | some v => (some ⟨[v], size⟩, taken ++ [.make v])

/-- `Poly::from_iter` (poly.rs 372-434) for values of `size` bytes; `panics`: the iterator panics when it is asked for
the item with this number.  Items are made one by one. -/
def polyFromIter (size : Nat) (items : List V) (panics : Option Nat) (room : Bool) : Option (Poly V) × List (Ev V) :=
  let total := size * items.length
  if total ≠ 0 ∧ room = false then (none, [])
  else
    let taken : List (Ev V) := if total = 0 then [] else [.alloc total]
    match panics with
    | none => (some ⟨items, total⟩, taken ++ items.map .make)
    | some k =>
      if k < items.length then
        (none, taken ++ (items.take k).map .make ++ (items.take k).map .drop ++ (if total = 0 then [] else [.free total]))
      else (some ⟨items, total⟩, taken ++ items.map .make)

/-- `drop` (poly.rs 483-510). -/
def polyDrop (p : Poly V) : List (Ev V) := p.vals.map .drop ++ (if p.size = 0 then [] else [.free p.size])

/-- The whole life of a pointer: what happens when it is made, and, if there is one, when it is dropped. -/
def life (x : Option (Poly V) × List (Ev V)) : List (Ev V) :=
  x.2 ++ (match x.1 with | none => [] | some p => polyDrop p)

end Verif.Alloc
