import Verif.AsyncTools.Model
import Verif.Graph.UpdateModel
import Verif.Disk.GraphFileModel

/-!
# Model of the one-shot build of a disk index graph

`run_build`, `run_final_prune` and the end of `build_inmem_index` (diskann-disk/src/build/builder/build.rs), with
`prune_range` (diskann/src/graph/index.rs).

Tasks run interleaved: a schedule is the list of the tasks that take a step, one after the other, of any length. Each
access to the shared iterator holds its mutex, so it is one step. When a task has failed the others are aborted wherever
they are (`JoinSet` is dropped), which is the end of the schedule. Panics in a task are failures. The insertion of a
vector is one step whose outcome the schedule decides; what it does to the graph is the subject of C05 to C10.
-/

namespace Verif.Build

open Verif.Graph Verif.AsyncTools

/-! ## Insertion -/

/-- A task of `run_build` (build.rs:335–353): rounds left of its partition, between two rounds or inserting. -/
inductive Task (V : Type) where
  | idle (left : Nat)
  | busy (i : Nat) (v : V) (left : Nat)
  | done
  | failed
deriving DecidableEq

/-- The iterator's position, the tasks, the insertions that succeeded and the vectors whose insertion failed. -/
structure St (V : Type) where
  next : Nat
  tasks : List (Task V)
  inserted : List (Nat × V)
  failures : List (Nat × V)
deriving DecidableEq

/-- Partition sizes and one task for each (build.rs:326–335). -/
def St.new (V : Type) (capacity numTasks : Nat) : St V :=
  ⟨0, (partitionIter capacity numTasks).map fun r => .idle (r.2 - r.1), [], []⟩

/-- A step of task `t`, number `j`. A round locks the iterator and takes a row (build.rs:337–342), checks that its number
fits `u32` (build.rs:346, 276–284) and inserts (build.rs:347); `ok` is the outcome of the insertion. The iterator is
`rows` from position `next` on. -/
def St.move {V : Type} (rows : List V) (s : St V) (j : Nat) (ok : Bool) : Task V → St V
  | .idle 0 => { s with tasks := s.tasks.set j .done }
  | .idle (left + 1) =>
    match rows[s.next]? with
    | none => { s with tasks := s.tasks.set j .done }
    | some v =>
      if s.next < 2 ^ 32 then { s with next := s.next + 1, tasks := s.tasks.set j (.busy s.next v left) }
      else { s with next := s.next + 1, tasks := s.tasks.set j .failed, failures := s.failures ++ [(s.next, v)] }
  | .busy i v left =>
    if ok then { s with tasks := s.tasks.set j (.idle left), inserted := s.inserted ++ [(i, v)] }
    else { s with tasks := s.tasks.set j .failed, failures := s.failures ++ [(i, v)] }
  | .done => s
  | .failed => s

/-- The scheduler picks task `j`. -/
def St.step {V : Type} (rows : List V) (s : St V) (x : Nat × Bool) : St V :=
  match s.tasks[x.1]? with
  | none => s
  | some t => s.move rows x.1 x.2 t

/-- A schedule. -/
def St.run {V : Type} (rows : List V) (s : St V) (sched : List (Nat × Bool)) : St V := sched.foldl (St.step rows) s

/-- `run_build` returns success once every task has ended without an error (build.rs:356–362). -/
def St.success {V : Type} (s : St V) : Prop := ∀ t ∈ s.tasks, t = .done

/-- `run_build` returns an error once a task has failed (build.rs:356–359). -/
def St.error {V : Type} (s : St V) : Prop := .failed ∈ s.tasks

/-! ## Final prune -/

/-- The new list of a vertex in `prune_range` (index.rs:2680–2696); `none` when the vector cannot be read, which is an
error, or when the prune does not end. -/
def pruneOf (c : Config) (srt : Sorter Nat) (env : Env Nat) (fuel : Nat) (v : Nat) (list : List Nat) : Option (List Nat) :=
  match robustPruneList c srt env fuel v list [] false with
  | some (.ok, out) => some out
  | _ => none

/-- A task of `run_final_prune` (build.rs:376–380): the ids left, between two ids or about to write. -/
inductive PTask where
  | idle (ids : List Nat)
  | writing (v : Nat) (out : List Nat) (ids : List Nat)
  | done
  | failed
deriving DecidableEq

/-- The graph and the tasks. -/
structure PSt where
  graph : Graph Nat
  tasks : List PTask

/-- The ids of a partition; both of its ends must fit `u32` (build.rs:377). -/
def pruneTask (r : Nat × Nat) : PTask :=
  if r.1 < 2 ^ 32 ∧ r.2 < 2 ^ 32 then .idle (List.range' r.1 (r.2 - r.1)) else .failed

/-- The tasks of `run_final_prune` (build.rs:371–380). -/
def PSt.new (g : Graph Nat) (total numTasks : Nat) : PSt := ⟨g, (partitionIter total numTasks).map pruneTask⟩

/-- A step of task `t`, number `j` (index.rs:2675–2696): read the list of the next id and prune it, or write. -/
def PSt.move (deg : Nat) (prune : Nat → List Nat → Option (List Nat)) (s : PSt) (j : Nat) : PTask → PSt
  | .idle [] => { s with tasks := s.tasks.set j .done }
  | .idle (v :: ids) =>
    if (s.graph v).length ≤ deg then { s with tasks := s.tasks.set j (.idle ids) }
    else
      match prune v (s.graph v) with
      | some out => { s with tasks := s.tasks.set j (.writing v out ids) }
      | none => { s with tasks := s.tasks.set j .failed }
  | .writing v out ids => ⟨setNeighbors s.graph v out, s.tasks.set j (.idle ids)⟩
  | .done => s
  | .failed => s

/-- The scheduler picks task `j`. -/
def PSt.step (deg : Nat) (prune : Nat → List Nat → Option (List Nat)) (s : PSt) (j : Nat) : PSt :=
  match s.tasks[j]? with
  | none => s
  | some t => s.move deg prune j t

/-- A schedule. -/
def PSt.run (deg : Nat) (prune : Nat → List Nat → Option (List Nat)) (s : PSt) (sched : List Nat) : PSt :=
  sched.foldl (PSt.step deg prune) s

/-- `run_final_prune` returns success once every task has ended without an error (build.rs:383–389). -/
def PSt.success (s : PSt) : Prop := ∀ t ∈ s.tasks, t = .done

/-- The lists handed to the writer of the disk graph (build.rs:260–265): those of the provider, with one more than
there are points and start points (`providerSlots`); the id of the start point, which comes after the points, is
replaced by that of the medoid. -/
def savedLists (g : Graph Nat) (capacity medoid : Nat) : List (List Nat) :=
  Verif.Disk.diskLists ((List.range (Verif.Disk.providerSlots capacity 1)).map g) 1 capacity medoid

end Verif.Build
