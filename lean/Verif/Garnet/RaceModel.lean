/-
Model of insertions and removals of a Garnet vector set that run at the same time: the records of the elements
and the lists of neighbours, one step per storage call, any number of threads in any interleaving.

Source: /repo/diskann-garnet/src/lib.rs, dyn_index.rs, provider.rs, fsm.rs and
/repo/diskann/src/graph/index.rs

Simplifications: storage calls do not fail (C106 is about failures); a deletion answers false if there was no
record; every storage call is atomic; codes and attributes are left out, they are written and deleted next to
the vector; what a search or a pruning picks is any list (C01 to C10 are about that); the free space map hands
out any id that is not in use.  A thread makes one call, there are infinitely many threads.
-/
namespace Verif.Garnet.Race

variable {E V : Type} [DecidableEq E]

/-- Change one entry of a table. -/
def upd {α β : Type} [DecidableEq α] (f : α → β) (k : α) (b : β) : α → β := fun x => if x = k then b else f x

/-- The storage: the ids in use (fsm.rs 70-107), the terms `Vector`, `ExtMap`, `IntMap` and `Neighbors`
(garnet.rs 24-33), and the next id to mint. -/
structure Store (E V : Type) where
  used : Nat → Bool
  next : Nat
  vec : Nat → Option V
  ext : Nat → Option E
  int : E → Option Nat
  lists : Nat → List Nat

/-- Where a call is.  Insertion of element `x` with vector `v` (provider.rs 1008-1069, index.rs 238-340) under
the id `i`: the id is taken; the vector is written; the name is written; the mapping is written; the out edges
are written and back edges are to do; the list of `src` has been read for a back edge; answered.
Removal of `x` (lib.rs 858-874, index.rs 1539-1580, provider.rs 1073-1116): it exists; the id `i` is looked up
by `inplace_delete`; the deletion looked it up again as `j` and is in `phase`; the deletion succeeded; edges to
add are to do; the list of `src` has been read for that; answered true; answered false. -/
inductive Thread (E V : Type)
  | idle
  | took (x : E) (v : V) (i : Nat)
  | wroteVec (x : E) (v : V) (i : Nat)
  | wroteExt (x : E) (v : V) (i : Nat)
  | stored (x : E) (v : V) (i : Nat)
  | linked (x : E) (v : V) (i : Nat) (todo : List Nat)
  | linkRead (x : E) (v : V) (i : Nat) (src : Nat) (read : List Nat) (todo : List Nat)
  | inserted (x : E) (v : V) (i : Nat)
  | checked (x : E)
  | found (x : E) (i : Nat)
  | deleting (x : E) (i j : Nat) (phase : Fin 4) (ok : Bool)
  | deleted (x : E) (i : Nat)
  | repairing (x : E) (i : Nat) (todo : List (Nat × List Nat))
  | repairRead (x : E) (i : Nat) (src : Nat) (targets read : List Nat) (todo : List (Nat × List Nat))
  | removed (x : E)
  | failed (x : E)

/-- The storage and the threads. -/
structure Sys (E V : Type) where
  st : Store E V
  th : Nat → Thread E V

/-- What is left open in a step: starting a call, the id that `next_id` returns, the out edges that search and
pruning picked, the edges that a removal wants to add, the result of a pruning. -/
inductive Choice (E V : Type)
  | startInsert (x : E) (v : V) (i : Nat)
  | startRemove (x : E)
  | go
  | link (outs : List Nat)
  | plan (edges : List (Nat × List Nat))
  | pruneTo (l : List Nat)

/-- `AdjacencyList::extend_from_slice` (adjacencylist.rs 102-130): append the ids that are not there yet. -/
def extend (l : List Nat) : List Nat → List Nat
  | [] => l
  | t :: ts => if t ∈ l then extend l ts else extend (l ++ [t]) ts

/-- `append_vector` of the provider (provider.rs 907-947): the same, up to the largest degree. -/
def append (cap : Nat) (l : List Nat) : List Nat → List Nat
  | [] => l
  | t :: ts => if l.length = cap then l else if t ∈ l then append cap l ts else append cap (l ++ [t]) ts

/-- The write of `add_edge_and_prune` (index.rs 2282-2337): `read` is the list it has read, `gone` the id whose
edges are dropped.  `now` is the stored list at the time of the write, the answer is the list stored after it.
`none`: the list is too long and is pruned, the caller supplies the result. -/
def edgeWrite (cap bound : Nat) (gone : Option Nat) (targets read now : List Nat) : Option (List Nat) :=
  let kept := read.filter fun e => gone ≠ some e
  let did := kept.length ≠ read.length
  let all := extend kept targets
  if all.length = kept.length ∧ ¬ did then some now
  else if all.length ≤ bound then
    if did then some all else some (append cap now (all.drop kept.length))
  else none

/-- The list of `src` after the write; a pruned list is chosen (index.rs 2313-2336). -/
def writeList (cap bound : Nat) (gone : Option Nat) (targets read now : List Nat) (c : Choice E V) :
    Option (List Nat) :=
  match edgeWrite cap bound gone targets read now, c with
  | some l, .go => some l
  | none, .pruneTo l => some l
  | _, _ => none

/-- One storage call of the deletion (provider.rs 1085-1109): the name, the mapping, the vector, the id. -/
def deletePhase (s : Store E V) (x : E) (j : Nat) (ok : Bool) : Fin 4 → Store E V × Bool
  | 0 => ({ s with ext := upd s.ext j none }, ok && (s.ext j).isSome)
  | 1 => ({ s with int := upd s.int x none }, ok && (s.int x).isSome)
  | 2 => ({ s with vec := upd s.vec j none }, ok && (s.vec j).isSome)
  | 3 => ({ s with used := upd s.used j false }, ok)

/-- One step of a thread; `none`: the thread cannot make this step.
`startInsert`: `next_id` (provider.rs 1014, fsm.rs 316-363) returns an unused id, at most the next one.
`startRemove`: `external_id_exists` (lib.rs 869-871, provider.rs 474-480).
`took` to `wroteExt`: the writes of `set_element` (provider.rs 1025-1058).
`stored`: search and prune, then `set_neighbors` of the out edges, of which the first `backs` get a back edge
(index.rs 317-327).  `linked`, `linkRead`: back edges (index.rs 327-336).
`checked`: `to_internal_id` in `inplace_delete` (index.rs 1540-1543).
`found`: `to_internal_id` in `delete` (provider.rs 1078-1081); the lookup between them (index.rs 1598-1601)
only serves to find the edges to add and is left out.
`deleting`: the storage calls of the deletion; if one of them answered false the removal fails at the end
(provider.rs 1107-1115).
`deleted`: the edges to add are found (index.rs 1626-1725).
`repairing`, `repairRead`: they are added (index.rs 1565-1574); after the last one the list of the looked up id
is dropped (index.rs 1576-1577). -/
def step (cap bound backs : Nat) (s : Store E V) (c : Choice E V) :
    Thread E V → Option (Store E V × Thread E V)
  | .idle =>
    match c with
    | .startInsert x v i =>
      if s.used i = false ∧ i ≤ s.next then
        some ({ s with used := upd s.used i true, next := max s.next (i + 1) }, .took x v i)
      else none
    | .startRemove x =>
      match s.int x with
      | none => some (s, .failed x)
      | some i => some (s, if s.used i then .checked x else .failed x)
    | _ => none
  | .took x v i =>
    match c with
    | .go => some ({ s with vec := upd s.vec i (some v) }, .wroteVec x v i)
    | _ => none
  | .wroteVec x v i =>
    match c with
    | .go => some ({ s with ext := upd s.ext i (some x) }, .wroteExt x v i)
    | _ => none
  | .wroteExt x v i =>
    match c with
    | .go => some ({ s with int := upd s.int x (some i) }, .stored x v i)
    | _ => none
  | .stored x v i =>
    match c with
    | .link outs => some ({ s with lists := upd s.lists i outs }, .linked x v i (outs.take backs))
    | _ => none
  | .linked x v i todo =>
    match c, todo with
    | .go, [] => some (s, .inserted x v i)
    | .go, src :: rest => some (s, .linkRead x v i src (s.lists src) rest)
    | _, _ => none
  | .linkRead x v i src read todo =>
    match writeList cap bound none [i] read (s.lists src) c with
    | some l => some ({ s with lists := upd s.lists src l }, .linked x v i todo)
    | none => none
  | .inserted _ _ _ => none
  | .checked x =>
    match c, s.int x with
    | .go, some i => some (s, .found x i)
    | .go, none => some (s, .failed x)
    | _, _ => none
  | .found x i =>
    match c, s.int x with
    | .go, some j => some (s, .deleting x i j 0 true)
    | .go, none => some (s, .failed x)
    | _, _ => none
  | .deleting x i j phase ok =>
    match c with
    | .go =>
      let r := deletePhase s x j ok phase
      if h : phase.val + 1 < 4 then some (r.1, .deleting x i j ⟨phase.val + 1, h⟩ r.2)
      else some (r.1, if r.2 then .deleted x i else .failed x)
    | _ => none
  | .deleted x i =>
    match c with
    | .plan edges => some (s, .repairing x i edges)
    | _ => none
  | .repairing x i todo =>
    match c, todo with
    | .go, [] => some ({ s with lists := upd s.lists i [] }, .removed x)
    | .go, (src, targets) :: rest => some (s, .repairRead x i src targets (s.lists src) rest)
    | _, _ => none
  | .repairRead x i src targets read todo =>
    match writeList cap bound (some i) targets read (s.lists src) c with
    | some l => some ({ s with lists := upd s.lists src l }, .repairing x i todo)
    | none => none
  | .removed _ => none
  | .failed _ => none

/-- A step of thread `t`. -/
def Sys.step (cap bound backs : Nat) (s : Sys E V) (t : Nat) (c : Choice E V) : Option (Sys E V) :=
  match Race.step cap bound backs s.st c (s.th t) with
  | some r => some ⟨r.1, upd s.th t r.2⟩
  | none => none

/-- Steps one after the other. -/
def Sys.run (cap bound backs : Nat) (s : Sys E V) : List (Nat × Choice E V) → Option (Sys E V)
  | [] => some s
  | tc :: l =>
    match s.step cap bound backs tc.1 tc.2 with
    | some s' => s'.run cap bound backs l
    | none => none

/-- A new set: it has its start point, with the vector `v0` under id 0 (provider.rs 321-400). -/
def Sys.new (v0 : V) : Sys E V where
  st :=
    { used := fun i => decide (i = 0), next := 1, vec := fun i => if i = 0 then some v0 else none,
      ext := fun _ => none, int := fun _ => none, lists := fun _ => [] }
  th := fun _ => .idle

/-- The element that a call is removing, if it is a removal that has not answered yet. -/
def Thread.removing : Thread E V → Option E
  | .checked x => some x
  | .found x _ => some x
  | .deleting x _ _ _ _ => some x
  | .deleted x _ => some x
  | .repairing x _ _ => some x
  | .repairRead x _ _ _ _ _ => some x
  | _ => none

/-- The ids that a removal has looked up and will still work on. -/
def Thread.held : Thread E V → List Nat
  | .found _ i => [i]
  | .deleting _ i j _ _ => [i, j]
  | .deleted _ i => [i]
  | .repairing _ i _ => [i]
  | .repairRead _ i _ _ _ _ => [i]
  | _ => []

end Verif.Garnet.Race
