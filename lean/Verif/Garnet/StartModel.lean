/-
Model of how a Garnet vector set gets its start point: the gate in front of every insertion, with any number of
threads, and the records that setting the start point writes, with failing storage calls and restarts.

Source: /repo/diskann-garnet/src/lib.rs, provider.rs

Simplifications: atomics are sequentially consistent, one atomic access per step; ids are natural numbers; the
free space map is the set of used ids and the next id to mint, the id it hands out is any id that is not in use
(C31); reads of records that exist succeed; a storage call that reports failure has changed nothing.
-/
namespace Verif.Garnet.Start

/-! ### The gate -/

/-- `IndexState` (lib.rs 57-66). -/
inductive Gate
  | noStart
  | setting
  | ready
  deriving DecidableEq

/-- Where a thread is in `ensure_index_ready_or_init` (lib.rs 547-587): before the load at the head of the loop,
before the compare-exchange, in `init`, before the store that follows it, or done: it passed or has failed. -/
inductive Pc
  | load
  | swap
  | init
  | store (ok : Bool)
  | passed
  | failed
  deriving DecidableEq

/-- The gate, the threads, and the outcomes of `init` so far, the latest first. -/
structure World where
  gate : Gate
  pcs : List Pc
  log : List Bool

/-- One step of thread `t`; `ok` is the outcome of `init` if this is the step.  Threads that are done do not
move. -/
def step (w : World) (t : Nat) (ok : Bool) : World :=
  match w.pcs[t]? with
  | some .load =>
    match w.gate with
    | .ready => { w with pcs := w.pcs.set t .passed }
    | .setting => w
    | .noStart => { w with pcs := w.pcs.set t .swap }
  | some .swap =>
    match w.gate with
    | .noStart => { w with gate := .setting, pcs := w.pcs.set t .init }
    | _ => { w with pcs := w.pcs.set t .load }
  | some .init => { w with pcs := w.pcs.set t (.store ok), log := ok :: w.log }
  | some (.store true) => { w with gate := .ready, pcs := w.pcs.set t .passed }
  | some (.store false) => { w with gate := .noStart, pcs := w.pcs.set t .failed }
  | _ => w

/-- A schedule: which thread moves, and the outcome of `init`. -/
def runGate (w : World) (sched : List (Nat × Bool)) : World := sched.foldl (fun w p => step w p.1 p.2) w

/-- A new index for `n` threads; it is ready if it was created with a start point (lib.rs 209-213). -/
def World.new (hasStart : Bool) (n : Nat) : World :=
  ⟨if hasStart then .ready else .noStart, List.replicate n .load, []⟩

/-! ### The records -/

/-- The records and caches of the start point, and the free space map. -/
structure Rec (V C : Type) where
  used : Nat → Bool
  next : Nat
  vec : Option V
  nbrs : Option (List Nat)
  code : Option C
  cacheVec : Option V
  cacheNbrs : Option (List Nat)
  cacheCode : Option C

/-- What `next_id` does (fsm.rs 334-380): fail, possibly after having moved `next_id`, or mark an id used. -/
inductive Alloc
  | fails (moved : Bool)
  | gives (id : Nat)

/-- Which steps succeed: freeing an id that is not zero, and the writes of the vector, the code and the
neighbours. -/
structure Faults where
  free : Bool
  vec : Bool
  code : Bool
  nbrs : Bool

variable {V C : Type}

/-- `start_points_exist` (provider.rs 411-413). -/
def Rec.exists? (s : Rec V C) : Bool := s.cacheVec.isSome && s.cacheNbrs.isSome

/-- `mark_used` of an id that was handed out, minted or not (fsm.rs 371-377). -/
def Rec.take (s : Rec V C) (i : Nat) : Rec V C :=
  { s with used := fun j => if j = i then true else s.used j, next := max s.next (i + 1) }

/-- `mark_free` (fsm.rs 205-209). -/
def Rec.free (s : Rec V C) (i : Nat) : Rec V C := { s with used := fun j => if j = i then false else s.used j }

/-- `maybe_set_start_point` (provider.rs 324-409); `q` is the quantizer if the index is quantized.  The lists
of neighbours are lists, not records with a length cell (those are C34).  The answer is whether it succeeded. -/
def attempt (q : Option (V → Option C)) (s : Rec V C) (p : V) (a : Alloc) (f : Faults) : Rec V C × Bool :=
  match s.vec with
  | some v =>
    match s.nbrs with
    | none => (s, false)
    | some ns =>
      match q with
      | none => ({ s with cacheVec := some v, cacheNbrs := some ns }, true)
      | some _ =>
        match s.code with
        | none => (s, false)
        | some c => ({ s with cacheCode := some c, cacheVec := some v, cacheNbrs := some ns }, true)
  | none =>
    match a with
    | .fails moved => ((if moved then { s with next := s.next + 1 } else s), false)
    | .gives i =>
      let s := s.take i
      if i ≠ 0 then (if f.free then (s.free i, false) else (s, false))
      else if !f.vec then (s, false)
      else
        let s := { s with vec := some p }
        let r : Rec V C × Bool := match q with
          | none => (s, true)
          | some k =>
            match k p with
            | none => (s, false)
            | some c => if f.code then ({ s with code := some c, cacheCode := some c }, true) else (s, false)
        if !r.2 then (r.1, false)
        else if !f.nbrs then (r.1, false)
        else ({ r.1 with nbrs := some [], cacheVec := some p, cacheNbrs := some [] }, true)

/-- The caches that `GarnetProvider::new` loads (provider.rs 197-211, and 239-244 for the code), after the free
space map was loaded: `next` is any number above all used ids.  The answer is whether an index is created: a
start vector without neighbours is an error.  Without an index the caches are empty. -/
def create (s : Rec V C) (next : Nat) : Rec V C × Bool :=
  match s.vec, s.nbrs with
  | some _, none => ({ s with cacheVec := none, cacheNbrs := none, cacheCode := none, next := next }, false)
  | some v, some ns => ({ s with cacheVec := some v, cacheNbrs := some ns, cacheCode := s.code, next := next }, true)
  | none, _ => ({ s with cacheVec := none, cacheNbrs := none, cacheCode := s.code, next := next }, true)

/-- What can happen: an attempt to set the start point, a restart, other calls that use and free ids other than
zero, changes of the list of neighbours of an existing start point, and the quantization of the start point at
the end of a backfill. -/
inductive Event (V C : Type)
  | attempt (q : Option (V → Option C)) (p : V) (a : Alloc) (f : Faults)
  | create (next : Nat)
  | take (i : Nat)
  | free (i : Nat)
  | neighbors (ns : List Nat)
  | backfill (c : C)

/-- One event: the new state and the answer. -/
def next (s : Rec V C) : Event V C → Rec V C × Bool
  | .attempt q p a f => attempt q s p a f
  | .create n => create s n
  | .take i => (s.take i, true)
  | .free i => (s.free i, true)
  | .neighbors ns => if s.nbrs.isSome then ({ s with nbrs := some ns, cacheNbrs := some ns }, true) else (s, false)
  | .backfill c => ({ s with code := some c, cacheCode := some c }, true)

/-- The ids that can be handed out, and the state of the free space map after a restart (C31, C32).  Ids are
taken and freed for other elements only, which never get id zero (C106). -/
def Allowed (s : Rec V C) : Event V C → Prop
  | .attempt _ _ (.gives i) _ => s.used i = false ∧ i ≤ s.next
  | .create n => ∀ i, s.used i = true → i < n
  | .take i => i ≠ 0 ∧ s.used i = false ∧ i ≤ s.next
  | .free i => i ≠ 0
  | .backfill _ => s.cacheVec.isSome
  | _ => True

/-- A run of events with their answers. -/
inductive Run : Rec V C → List (Event V C × Bool) → Rec V C → Prop
  | nil (s) : Run s [] s
  | cons {s e es t} : Allowed s e → Run (next s e).1 es t → Run s ((e, (next s e).2) :: es) t

/-- Nothing is stored. -/
def Rec.empty : Rec V C := ⟨fun _ => false, 0, none, none, none, none, none, none⟩

end Verif.Garnet.Start
