import Verif.AsyncTools.Model

/-!
# Model of the batched builds and searches of the benchmark library

`build_tracked` (diskann-benchmark-core/src/build/api.rs), `search` (diskann-benchmark-core/src/search/api.rs), the
aggregation of result ids (search/ids.rs) and their buffers (internal/buffer.rs).

Tasks run interleaved: a schedule is the list of the tasks that take a step. Loads and compare-exchanges of the shared
counter are single steps. A panic of a task is an error of the call, as the task is joined with `?`. Latencies are left
out.
-/

namespace Verif.Harness

open Verif.AsyncTools

/-- A range of data points. -/
abbrev Rng := Nat × Nat

/-! ## Builds with dynamic balancing -/

/-- Where a task of `build_inner_dynamic` is (build/api.rs:355–373): before `next`, inside its loop with the value last
read, building a batch, or at its end. -/
inductive Pc where
  | idle
  | loaded (start : Nat)
  | building (r : Rng)
  | done
  | failed (r : Rng)
deriving DecidableEq

/-- A task and its results so far. -/
structure Worker (O : Type) where
  pc : Pc
  results : List (Rng × O)
deriving DecidableEq

/-- The shared counter, the tasks, and the points reported as processed. -/
structure Dyn (O : Type) where
  head : Nat
  workers : List (Worker O)
  progress : Nat
deriving DecidableEq

/-- The start of `build_inner_dynamic` (build/api.rs:348–355, 435–441). -/
def Dyn.new (O : Type) (ntasks : Nat) : Dyn O := ⟨0, List.replicate ntasks ⟨.idle, []⟩, 0⟩

/-- A step of task `w`, number `j`: `ControlBlock::next` (build/api.rs:401–425) and the body of its loop
(build/api.rs:357–373); `out` is the outcome of the batch, `none` an error. -/
def Dyn.move {O : Type} (max batch : Nat) (s : Dyn O) (j : Nat) (out : Option O) (w : Worker O) : Dyn O :=
  match w.pc with
  | .idle => { s with workers := s.workers.set j { w with pc := .loaded s.head } }
  | .loaded start =>
    let next := min (min (start + batch) (2 ^ 64 - 1)) max
    if next = start then { s with workers := s.workers.set j { w with pc := .done } }
    else if s.head = start then
      { s with head := next, workers := s.workers.set j { w with pc := .building (start, next) } }
    else { s with workers := s.workers.set j { w with pc := .loaded s.head } }
  | .building r =>
    match out with
    | some o =>
      { s with workers := s.workers.set j ⟨.idle, w.results ++ [(r, o)]⟩, progress := s.progress + (r.2 - r.1) }
    | none => { s with workers := s.workers.set j { w with pc := .failed r } }
  | .done => s
  | .failed _ => s

/-- The scheduler picks task `j`. -/
def Dyn.step {O : Type} (max batch : Nat) (s : Dyn O) (x : Nat × Option O) : Dyn O :=
  match s.workers[x.1]? with
  | none => s
  | some w => s.move max batch x.1 x.2 w

/-- A schedule. -/
def Dyn.run {O : Type} (max batch : Nat) (s : Dyn O) (sched : List (Nat × Option O)) : Dyn O :=
  sched.foldl (Dyn.step max batch) s

/-- All tasks have ended without an error (build/api.rs:377–380). -/
def Dyn.success {O : Type} (s : Dyn O) : Prop := ∀ w ∈ s.workers, w.pc = .done

/-- A task has failed. -/
def Dyn.error {O : Type} (s : Dyn O) : Prop := ∃ w ∈ s.workers, ∃ r, w.pc = .failed r

/-- `BuildResults::new` (build/api.rs:111–138): the results with the numbers of their tasks, task by task. -/
def flatten {O : Type} (tasks : List (List (Rng × O))) : List (Nat × Rng × O) :=
  ((List.range tasks.length).zip tasks).flatMap fun t => t.2.map fun r => (t.1, r)

/-! ## Builds with fixed parts -/

/-- `Chunks` (build/api.rs:521–553); `none` if the addition overflows. -/
def chunks (batch hi : Nat) : (fuel cur : Nat) → Option (List Rng)
  | 0, _ => some []
  | fuel + 1, cur =>
    if hi ≤ cur then some []
    else if cur + batch < 2 ^ 64 then (chunks batch hi fuel (min (cur + batch) hi)).map ((cur, min (cur + batch) hi) :: ·)
    else none

/-- The batches of a task of `build_inner_fixed` (build/api.rs:463–497). -/
def fixedBatches (batch : Option Nat) (r : Rng) : Option (List Rng) :=
  match batch with
  | some b => chunks b r.2 (r.2 - r.1 + 1) r.1
  | none => some [r]

/-- A task runs its batches until one fails (build/api.rs:465–497). -/
def runBatches {O : Type} (out : Rng → Option O) : List Rng → Option (List (Rng × O))
  | [] => some []
  | r :: rs =>
    match out r with
    | none => none
    | some o => (runBatches out rs).map ((r, o) :: ·)

/-- All of them, or an error (build/api.rs:503–506). -/
def collect {α β : Type} (f : α → Option β) : List α → Option (List β)
  | [] => some []
  | a :: as =>
    match f a with
    | none => none
    | some b => (collect f as).map (b :: ·)

/-- `build_inner_fixed` (build/api.rs:449–517); the tasks share nothing, so they are run one after the other. -/
def buildFixed {O : Type} (max ntasks : Nat) (batch : Option Nat) (out : Rng → Option O) :
    Option (List (Nat × Rng × O)) :=
  (collect (fun r => (fixedBatches batch r).bind (runBatches out)) (partitionIter max ntasks)).map flatten

/-! ## Searches -/

/-- What a search does with its output buffer. -/
inductive Write (I : Type) where
  | push (id : I)
  | extend (ids : List I)

/-- `Inner::Slice` (internal/buffer.rs:23). -/
structure Slice (I : Type) where
  slots : List I
  written : Nat

/-- `push` and `extend` into a slice (internal/buffer.rs:67–78, 91–102). -/
def Slice.write {I : Type} (b : Slice I) : Write I → Slice I
  | .push id => if b.written < b.slots.length then ⟨b.slots.set b.written id, b.written + 1⟩ else b
  | .extend ids =>
    let n := min (b.slots.length - b.written) ids.length
    ⟨b.slots.take b.written ++ ids.take n ++ b.slots.drop (b.written + n), b.written + n⟩

/-- `push` and `extend` into a vector (internal/buffer.rs:79–82, 103–107). -/
def vecWrite {I : Type} (v : List I) : Write I → List I
  | .push id => v ++ [id]
  | .extend ids => v ++ ids

/-- `ResultIdsInner` (search/ids.rs:37–42, 109–112): rows of a matrix with the number of valid ids of each, or rows. -/
inductive Ids (I : Type) where
  | fixed (cols : Nat) (rows : List (List I)) (lengths : List Nat)
  | dynamic (rows : List (List I))

/-- The rows a caller sees (search/ids.rs:73–98). -/
def Ids.rows {I : Type} : Ids I → List (List I)
  | .fixed _ rows lengths => List.zipWith (fun row n => row.take n) rows lengths
  | .dynamic rows => rows

/-- `IdAggregator` (search/ids.rs:129–143). -/
inductive Agg (I : Type) where
  | empty
  | fixed (parts : List (List (List I) × List Nat)) (len cols : Nat)
  | dynamic (parts : List (Ids I))

/-- `IdAggregator::push` (search/ids.rs:155–217). -/
def Agg.push {I : Type} : Agg I → Ids I → Agg I
  | .empty, .fixed c rows lengths => .fixed [(rows, lengths)] rows.length c
  | .empty, .dynamic rows => .dynamic [.dynamic rows]
  | .fixed parts len cols, .fixed c rows lengths =>
    if c = cols then .fixed (parts ++ [(rows, lengths)]) (len + lengths.length) cols
    else .dynamic ((parts.map fun p => .fixed cols p.1 p.2) ++ [.fixed c rows lengths])
  | .fixed parts _ cols, .dynamic rows => .dynamic ((parts.map fun p => .fixed cols p.1 p.2) ++ [.dynamic rows])
  | .dynamic parts, ids => .dynamic (parts ++ [ids])

/-- Copying rows into the new matrix, one after the other (search/ids.rs:237–242); `none` when a row does not exist or
has another length. -/
def copyRows {I : Type} (dst : List (List I)) : (at_ : Nat) → List (List I) → Option (List (List I))
  | _, [] => some dst
  | i, row :: rows =>
    match dst[i]? with
    | none => none
    | some old => if old.length = row.length then copyRows (dst.set i row) (i + 1) rows else none

/-- `IdAggregator::finish` (search/ids.rs:221–264); `none` is a panic. `dflt` is the default id. -/
def Agg.finish {I : Type} (dflt : I) : Agg I → Option (Ids I)
  | .empty => some (.dynamic [])
  | .fixed parts len cols =>
    match copyRows (List.replicate len (List.replicate cols dflt)) 0 (parts.flatMap (·.1)) with
    | none => none
    | some dst =>
      let lengths := parts.flatMap (·.2)
      if dst.length = lengths.length then some (.fixed cols dst lengths) else none
  | .dynamic parts => some (.dynamic (parts.flatMap Ids.rows))

/-- `IdCount` (search/api.rs:33–40). -/
inductive IdCount where
  | fixed (n : Nat)
  | dynamic

/-- `search_batch_fixed` and `search_batch_dynamic` (search/api.rs:510–575) on the queries `qs`. A query makes its writes
and returns its output, or fails. -/
def searchBatch {I O : Type} (dflt : I) (count : IdCount) (query : Nat → Option (List (Write I) × O)) (qs : List Nat) :
    Option (Ids I × List O) :=
  match collect query qs with
  | none => none
  | some res =>
    match count with
    | .fixed n =>
      let bufs := res.map fun r => r.1.foldl Slice.write ⟨List.replicate n dflt, 0⟩
      some (.fixed n (bufs.map (·.slots)) (bufs.map (·.written)), res.map (·.2))
    | .dynamic => some (.dynamic (res.map fun r => r.1.foldl vecWrite []), res.map (·.2))

/-- `search` (search/api.rs:400–434) and `Collector::collect` (search/api.rs:161–165, 193–208): one task for each part
of the queries, results in the order of the tasks. -/
def search {I O : Type} (dflt : I) (nq ntasks : Nat) (count : IdCount) (query : Nat → Option (List (Write I) × O)) :
    Option (Ids I × List O) :=
  match collect (fun r => searchBatch dflt count query (List.range' r.1 (r.2 - r.1))) (partitionIter nq ntasks) with
  | none => none
  | some parts =>
    ((parts.map (·.1)).foldl Agg.push .empty).finish dflt |>.map fun ids => (ids, parts.flatMap (·.2))

end Verif.Harness
