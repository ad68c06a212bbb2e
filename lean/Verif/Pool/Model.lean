import Mathlib.Logic.Function.Basic

/-!
# Model of the object pool

`ObjectPool`, `PooledRef` and `PooledArc` (diskann-utils/src/object_pool.rs).

Each critical section of the queue's mutex is one step; `try_modify`, `modify`, `try_create` and `create` run outside
the lock and are separate steps, so requests interleave freely. Every object has an identity of its own. A request is
a call of `get`, `get_ref`, `try_get` or `try_get_ref` and the guard it returns; a request number can be used again
after the guard is dropped. An error and a panic of `try_create`/`try_modify` are both `none`: in both cases the call
does not return a guard and the local object is dropped. Lock poisoning has no effect (object_pool.rs:199–216).
-/

namespace Verif.Pool

variable {V A : Type}

/-- An object and its identity. -/
structure Obj (V : Type) where
  uid : Nat
  val : V
deriving DecidableEq

/-- What a request is doing. -/
inductive Req (V A : Type) where
  | idle
  | creating (a : A)
  | modifying (o : Obj V) (a : A)
  | holding (o : Obj V)

/-- How the pooled type is created and modified (`AsPooled`, `TryAsPooled`, object_pool.rs:219–265). -/
structure Kind (V A : Type) where
  create : A → Option V
  modify : A → V → Option V

/-- The pool (object_pool.rs:26–34), the requests, and what happened: objects dropped, and for every finished call its
argument and what it returned. -/
structure Sys (V A : Type) where
  queue : List (Obj V)
  capacity : Option Nat
  req : Nat → Req V A
  next : Nat
  dropped : List Nat
  answers : List (A × Option V)

/-- `usize::MAX`. -/
def usizeMax : Nat := 2 ^ 64 - 1

/-- The objects made by `new` (object_pool.rs:43–78); `none` when creating one fails. -/
def createMany (k : Kind V A) (a : A) : Nat → Nat → Option (List (Obj V))
  | 0, _ => some []
  | n + 1, uid =>
    match k.create a with
    | none => none
    | some v => (createMany k a n (uid + 1)).map fun q => ⟨uid, v⟩ :: q

/-- `new` and `try_new` (object_pool.rs:43–78). -/
def Sys.new (k : Kind V A) (a : A) (initial : Nat) (capacity : Option Nat) : Option (Sys V A) :=
  (createMany k a initial 0).map fun q => ⟨q, capacity, fun _ => .idle, initial, [], []⟩

/-- One step. -/
inductive Step (V A : Type) where
  | get (r : Nat) (a : A)
  | finish (r : Nat)
  | use (r : Nat) (v : V)
  | drop (r : Nat)

/-- The critical section of `get_or_create` / `try_get_or_create` (object_pool.rs:162–196): `pop_front`. -/
def Sys.get (s : Sys V A) (r : Nat) (a : A) : Sys V A :=
  match s.req r with
  | .idle =>
    match s.queue with
    | [] => { s with req := Function.update s.req r (.creating a) }
    | o :: q => { s with queue := q, req := Function.update s.req r (.modifying o a) }
  | _ => s

/-- The rest of the call (object_pool.rs:171–176, 189–194). -/
def Sys.finish (k : Kind V A) (s : Sys V A) (r : Nat) : Sys V A :=
  match s.req r with
  | .creating a =>
    match k.create a with
    | none => { s with req := Function.update s.req r .idle, answers := (a, none) :: s.answers }
    | some v =>
      { s with req := Function.update s.req r (.holding ⟨s.next, v⟩), next := s.next + 1,
               answers := (a, some v) :: s.answers }
  | .modifying o a =>
    match k.modify a o.val with
    | none =>
      { s with req := Function.update s.req r .idle, dropped := o.uid :: s.dropped,
               answers := (a, none) :: s.answers }
    | some v =>
      { s with req := Function.update s.req r (.holding ⟨o.uid, v⟩), answers := (a, some v) :: s.answers }
  | _ => s

/-- The holder of a guard changes the object through `DerefMut` (object_pool.rs:330–334, 370–374). -/
def Sys.use (s : Sys V A) (r : Nat) (v : V) : Sys V A :=
  match s.req r with
  | .holding o => { s with req := Function.update s.req r (.holding ⟨o.uid, v⟩) }
  | _ => s

/-- Dropping a guard (object_pool.rs:306–320, 348–362). -/
def Sys.drop (s : Sys V A) (r : Nat) : Sys V A :=
  match s.req r with
  | .holding o =>
    if s.queue.length < s.capacity.getD usizeMax then
      { s with req := Function.update s.req r .idle, queue := s.queue ++ [o] }
    else { s with req := Function.update s.req r .idle, dropped := o.uid :: s.dropped }
  | _ => s

/-- A step. -/
def Sys.step (k : Kind V A) (s : Sys V A) : Step V A → Sys V A
  | .get r a => s.get r a
  | .finish r => s.finish k r
  | .use r v => s.use r v
  | .drop r => s.drop r

/-- A run. -/
def Sys.run (k : Kind V A) (s : Sys V A) (steps : List (Step V A)) : Sys V A := steps.foldl (Sys.step k) s

/-- `Vec<T>` pooled with `Undef` (object_pool.rs:286–297). -/
def undefVec {T : Type} (dflt : T) : Kind (List T) Nat where
  create n := some (List.replicate n dflt)
  modify n v := some (if n ≤ v.length then v.take n else v ++ List.replicate (n - v.length) dflt)

end Verif.Pool
