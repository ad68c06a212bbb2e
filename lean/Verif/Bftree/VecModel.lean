/-
Model of the vectors of a bf-tree provider: the full-precision store, the store of codes, the striped locks that
calls take, and what searches read.

Source: /repo/diskann-bftree/src/{provider,vectors,quant,locks,lib}.rs

Simplifications: a tree is a table whose calls are atomic (crate `bf_tree`, not in the repository); the hash of the
stripes is any function; quantization is any partial function of the vector.  A provider without quantization is the
case in which every code is the same.  The assertion of a debug build after a failed write of a code
(provider.rs 679-682) is left out.  A thread makes one call, there are infinitely many threads.
-/
namespace Verif.Bftree.Vecs

variable {V C : Type}

/-- Change one entry of a table. -/
def upd {β : Type} (f : Nat → β) (k : Nat) (b : β) : Nat → β := fun x => if x = k then b else f x

/-- What does not change: the number of points with the start points (vectors.rs 78-80), the number of start points,
the dimension, the length of a vector, `Quantizer::compress`, and the stripe of an id (locks.rs 45-47). -/
structure Cfg (V C : Type) where
  total : Nat
  starts : Nat
  dim : Nat
  len : V → Nat
  enc : V → Option C
  stripe : Nat → Nat

/-- The two trees and the thread that holds each lock. -/
structure Store (V C : Type) where
  full : Nat → Option V
  quant : Nat → Option C
  lock : Nat → Option Nat

/-- Where a call is: it holds the lock; it has written or deleted the vector; it has answered. -/
inductive Thread (V : Type)
  | idle
  | setLocked (id : Nat) (v : V)
  | setFull (id : Nat) (v : V)
  | delLocked (id : Nat)
  | delFull (id : Nat)
  | stored (id : Nat) (v : V)
  | failed (id : Nat)
  | deleted (id : Nat)

/-- What is left open in a step: starting a call, and whether a tree refuses a record. -/
inductive Choice (V : Type)
  | startSet (id : Nat) (v : V)
  | startDel (id : Nat)
  | go
  | refuse

/-- The id that a choice starts to work on. -/
def Choice.starts : Choice V → Option Nat
  | .startSet id _ => some id
  | .startDel id => some id
  | .go => none
  | .refuse => none

/-- One step of thread `t`; `none`: it cannot make this step.
`startSet`, `startDel`: `locks.lock` (provider.rs 670, 497; locks.rs 50-55) waits for the lock.
`setLocked`: `VectorProvider::set_vector_sync` (vectors.rs 129-148): the checks, then the write, which the tree may
refuse (lib.rs 199-204).
`setFull`: `QuantVectorProvider::set_vector_sync` (quant.rs 181-211): compression, which may fail, and the write.
`delLocked`, `delFull`: the two deletions (provider.rs 501-502).
The lock is released when the call returns. -/
def step (cfg : Cfg V C) (t : Nat) (s : Store V C) (c : Choice V) : Thread V → Option (Store V C × Thread V)
  | .idle =>
    match c with
    | .startSet id v =>
      match s.lock (cfg.stripe id) with
      | none => some ({ s with lock := upd s.lock (cfg.stripe id) (some t) }, .setLocked id v)
      | some _ => none
    | .startDel id =>
      match s.lock (cfg.stripe id) with
      | none => some ({ s with lock := upd s.lock (cfg.stripe id) (some t) }, .delLocked id)
      | some _ => none
    | _ => none
  | .setLocked id v =>
    match c with
    | .go =>
      if cfg.len v ≠ cfg.dim ∨ cfg.total ≤ id then
        some ({ s with lock := upd s.lock (cfg.stripe id) none }, .failed id)
      else some ({ s with full := upd s.full id (some v) }, .setFull id v)
    | .refuse => some ({ s with lock := upd s.lock (cfg.stripe id) none }, .failed id)
    | _ => none
  | .setFull id v =>
    match c with
    | .go =>
      match cfg.enc v with
      | some code =>
        some ({ s with quant := upd s.quant id (some code), lock := upd s.lock (cfg.stripe id) none }, .stored id v)
      | none => some ({ s with lock := upd s.lock (cfg.stripe id) none }, .failed id)
    | .refuse => some ({ s with lock := upd s.lock (cfg.stripe id) none }, .failed id)
    | _ => none
  | .delLocked id =>
    match c with
    | .go => some ({ s with full := upd s.full id none }, .delFull id)
    | _ => none
  | .delFull id =>
    match c with
    | .go =>
      some ({ s with quant := upd s.quant id none, lock := upd s.lock (cfg.stripe id) none }, .deleted id)
    | _ => none
  | .stored _ _ => none
  | .failed _ => none
  | .deleted _ => none

/-- The stores and the threads. -/
structure Sys (V C : Type) where
  st : Store V C
  th : Nat → Thread V

/-- A step of thread `t`. -/
def Sys.step (cfg : Cfg V C) (s : Sys V C) (t : Nat) (c : Choice V) : Option (Sys V C) :=
  match Vecs.step cfg t s.st c (s.th t) with
  | some r => some ⟨r.1, upd s.th t r.2⟩
  | none => none

/-- Steps one after the other. -/
def Sys.run (cfg : Cfg V C) (s : Sys V C) : List (Nat × Choice V) → Option (Sys V C)
  | [] => some s
  | tc :: l =>
    match s.step cfg tc.1 tc.2 with
    | some s' => s'.run cfg l
    | none => none

/-- The ids of the start points (vectors.rs 99-110). -/
def startIds (cfg : Cfg V C) : List Nat := List.range' (cfg.total - cfg.starts) cfg.starts

/-- The stores after `set_start_points` (provider.rs 754-775), before any call. -/
def Sys.new (cfg : Cfg V C) (start : Nat → V) : Sys V C where
  st :=
    { full := fun i => if i ∈ startIds cfg then some (start i) else none,
      quant := fun i => if i ∈ startIds cfg then cfg.enc (start i) else none,
      lock := fun _ => none }
  th := fun _ => .idle

/-! ### What searches read -/

/-- A read: a value, nothing there (`VectorUnavailable`, a transient error) or a hard error (vectors.rs 150-200). -/
inductive Read (α : Type)
  | found (a : α)
  | missing
  | broken

/-- `start_point_distances` (provider.rs 872-884, 983-995): a start point that is missing is an error.  `dist k id`:
what the `k`-th read finds, turned into a distance. -/
def startDistances {D : Type} (dist : Nat → Nat → Read D) : Nat → List Nat → Option (List (Nat × D))
  | _, [] => some []
  | k, id :: ids =>
    match dist k id with
    | .found d => (startDistances dist (k + 1) ids).map fun out => (id, d) :: out
    | .missing => none
    | .broken => none

/-- The inner loop of `expand_beam` (provider.rs 899-911, 1010-1022): `seen` is the state of the predicate, which
accepts an id once; missing vectors are skipped.  The answer: what was reported, the number of reads made, the state
of the predicate, and whether it went well. -/
def visit {D : Type} (dist : Nat → Nat → Read D) (k : Nat) (seen : List Nat) :
    List Nat → List (Nat × D) × Nat × List Nat × Bool
  | [] => ([], k, seen, true)
  | id :: ids =>
    if id ∈ seen then visit dist k seen ids
    else
      match dist k id with
      | .found d =>
        let r := visit dist (k + 1) (id :: seen) ids
        ((id, d) :: r.1, r.2)
      | .missing => visit dist (k + 1) (id :: seen) ids
      | .broken => ([], k + 1, id :: seen, false)

/-- `expand_beam` (provider.rs 886-913, 997-1024): one list of neighbours after the other. -/
def expand {D : Type} (dist : Nat → Nat → Read D) (lists : Nat → List Nat) (k : Nat) (seen : List Nat) :
    List Nat → List (Nat × D) × Nat × List Nat × Bool
  | [] => ([], k, seen, true)
  | n :: ns =>
    match visit dist k seen (lists n) with
    | (out, k', seen', true) =>
      let r := expand dist lists k' seen' ns
      (out ++ r.1, r.2)
    | (out, k', seen', false) => (out, k', seen', false)

/-- The loop of `Rerank::post_process` (provider.rs 1584-1601): missing candidates are skipped. -/
def rerankLoop {D : Type} (dist : Nat → Nat → Read D) : Nat → List Nat → Option (List (Nat × D))
  | _, [] => some []
  | k, id :: ids =>
    match dist k id with
    | .found d => (rerankLoop dist (k + 1) ids).map fun out => (id, d) :: out
    | .missing => rerankLoop dist (k + 1) ids
    | .broken => none

/-- `Rerank::post_process` (provider.rs 1571-1604): sorted by distance.  `sort` is `sort_unstable_by`. -/
def rerank {D : Type} (sort : List (Nat × D) → List (Nat × D)) (dist : Nat → Nat → Read D) (cands : List Nat) :
    Option (List (Nat × D)) := (rerankLoop dist 0 cands).map sort

end Verif.Bftree.Vecs
