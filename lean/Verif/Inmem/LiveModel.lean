import Verif.Inmem.IdsModel
import Verif.Search.BufferModel

/-! # Searches of the in-memory provider while vectors are inserted and deleted

`diskann-inmem/src/provider.rs`: the search accessor, beam expansion and the translation of results, on top of the
model of `set_element` and `delete` in `Verif.Inmem.IdsModel`.

Simplifications. A vector is a value of `V`; distances are functions of it and are left out of the concurrent part, so a
result is an external id with the vector its distance was computed from. A search may read any id at any time: which ids it reads, and
which of them are candidates, is chosen by the environment (the graph search is `Verif.Search`). Slots below the
capacity are vectors, slots from it on are start points. The store is atomic, and a retired slot is not reclaimed while a
search that has read it holds its guard: this is what C19 and C20 prove of the store. -/

namespace Verif.Inmem.Live

open Verif.Inmem
open Verif.Search (BufferState)

variable {V : Type}

/-- Where a search is. `reads`: slots read so far and what was found, while the guard is held. -/
inductive Search (V : Type)
  | idle
  /-- `search_accessor` has made the reader (provider.rs 857–883) -/
  | reading (reads : List (Nat × V))
  /-- `Translate::post_process` with the ranked candidates (kept for the statements), those to go,
  the output and the count so far (provider.rs 914–949) -/
  | translating (reads cands todo : List (Nat × V)) (out : List (Nat × V)) (count : Nat)
  /-- the search has returned: candidates (kept for the statements), output and count -/
  | done (cands : List (Nat × V)) (out : List (Nat × V)) (count : Nat)
deriving DecidableEq

/-- What a call still does to the graph after its `set_element` or `delete` (diskann/src/graph/index.rs 317–336, 1576–1577). -/
inductive Tail
  | none
  /-- an insertion: write the list of slot `i` -/
  | link (i : Nat)
  /-- an in-place deletion: drop the list of slot `i` -/
  | drop (i : Nat)
deriving DecidableEq

/-- Provider, stored vectors, adjacency lists, calls and searches. -/
structure State (V : Type) where
  p : PState
  data : Nat → V
  lists : Nat → List Nat
  tail : Nat → Tail
  sr : Nat → Search V

/-- `Provider::new` (provider.rs 96–131): slots from `capacity` on hold the start points. -/
def State.init (capacity : Nat) (data : Nat → V) : State V :=
  ⟨PState.init capacity, data, fun _ => [], fun _ => .none, fun _ => .idle⟩

/-- What a search in this state has read under its guard. -/
def Search.reads : Search V → List (Nat × V)
  | .reading r => r
  | .translating r _ _ _ _ => r
  | _ => []

/-- `Reader::read` (store.rs 635–723): a published slot or a start point. -/
def State.read (s : State V) (i : Nat) : Option V :=
  if s.p.maps.capacity ≤ i then some (s.data i)
  else if s.p.tags i = PUBLISHED then some (s.data i) else none

/-- `IdDistance::push` (diskann/src/graph/search_output_buffer.rs 107–124) on a buffer of `k` places. -/
def push {α : Type} (k : Nat) (out : List α) (x : α) : BufferState × List α :=
  if out.length = k then (.full, out)
  else (if out.length + 1 = k then .full else .available, out ++ [x])

/-- The next state of a translation for a candidate with external id `e` (provider.rs 932–945). -/
def translated (k : Nat) (reads cands rest out : List (Nat × V)) (count : Nat) (x : Nat × V) : Search V :=
  match push k out x with
  | (.available, out') => .translating reads cands rest out' (count + 1)
  | (.full, out') => .done cands out' count

inductive Choice (V : Type)
  /-- a step of call `a` of `set_element` or `delete`; `v` is the vector, used when it is encoded -/
  | write (a : Nat) (c : PChoice) (v : V)
  /-- the last graph update of an insertion or deletion by call `a`; `outs` are the edges found -/
  | finish (a : Nat) (outs : List Nat)
  | begin (t : Nat)
  | read (t i : Nat)
  | rank (t : Nat) (cands : List (Nat × V))
  | translate (t : Nat)

/-- Slot whose payload a step of call `a` writes: `layers::Set::set` into the owned slot (provider.rs 355). -/
def encodes (s : PState) (a : Nat) : PChoice → Option Nat
  | .encode true => match s.pcs a with | .setOwned _ i => some i | _ => none
  | _ => none

/-- What the environment of the provider keeps to. -/
def Allowed (s : State V) : Choice V → Prop
  -- the store reclaims a slot only when no search that has read it holds its guard (C19, C20)
  | .write _ (.reclaim i) _ => ∀ t v, (i, v) ∉ (s.sr t).reads
  -- the candidates of a search are distinct ids that it has read (C15)
  | .rank t cands => (cands.map (·.1)).Nodup ∧ ∀ c ∈ cands, c ∈ (s.sr t).reads
  | _ => True

/-- One step; `k` is the size of the output buffers of searches. `none`: not possible in this state. -/
def step (k : Nat) (s : State V) : Choice V → Option (State V)
  | .write a c v =>
    match pact a c s.p with
    | none => none
    | some (p, ev) =>
      some { s with
        p := p
        data := match encodes s.p a c with | some i => upd s.data i v | none => s.data
        tail := match ev with
          | some (.setOk _ i) => upd s.tail a (.link i)
          | some (.delOk _ i) => upd s.tail a (.drop i)
          | _ => s.tail }
  | .finish a outs =>
    match s.tail a with
    | .none => none
    | .link i => some { s with lists := upd s.lists i outs, tail := upd s.tail a .none }
    | .drop i => some { s with lists := upd s.lists i [], tail := upd s.tail a .none }
  | .begin t =>
    match s.sr t with
    | .idle => some { s with sr := upd s.sr t (.reading []) }
    | _ => none
  | .read t i =>
    match s.sr t with
    | .reading r =>
      match s.read i with
      | some v => some { s with sr := upd s.sr t (.reading (r ++ [(i, v)])) }
      | none => some s
    | _ => none
  | .rank t cands =>
    match s.sr t with
    | .reading r => some { s with sr := upd s.sr t (.translating r cands cands [] 0) }
    | _ => none
  | .translate t =>
    match s.sr t with
    | .translating _ cands [] out n => some { s with sr := upd s.sr t (.done cands out n) }
    | .translating r cands ((i, v) :: rest) out n =>
      -- `to_external` (ids.rs 108–117); it waits for the lock of the shard
      if i < s.p.maps.capacity ∧ s.p.shardLock (shardOf i).1 ≠ none then none
      else
        match s.p.maps.toExternal i with
        | none => none
        | some none => some { s with sr := upd s.sr t (.translating r cands rest out n) }
        | some (some e) => some { s with sr := upd s.sr t (translated k r cands rest out n (e, v)) }
    | _ => none

/-- Executions from an empty provider; `past` are the states before `s`, newest first. -/
inductive Run (capacity k : Nat) (data : Nat → V) : List (State V) → State V → Prop
  | start : Run capacity k data [] (State.init capacity data)
  | step {past : List (State V)} {s s' : State V} (c : Choice V) :
      Run capacity k data past s → Allowed s c → step k s c = some s' → Run capacity k data (s :: past) s'

/-- Steps one after the other (for examples). -/
def runs (k : Nat) (s : State V) : List (Choice V) → List (State V) × Option (State V)
  | [] => ([], some s)
  | c :: cs =>
    match step k s c with
    | none => ([s], none)
    | some s' => let r := runs k s' cs; (r.1 ++ [s], r.2)

/-! ## Beam expansion -/

/-- What the kernel does: prefetch the data of an id, or evaluate the distance to it. -/
inductive Access
  | prefetch (i : Nat)
  | eval (i : Nat)
deriving DecidableEq

/-- The prefetch of an iteration, if ids are left to prefetch (provider.rs 680–686). -/
def nextPrefetch : List Nat → List Access
  | [] => []
  | j :: _ => [.prefetch j]

/-- The loop of `expand_beam_inner` (provider.rs 679–703): the rest of the list, the ids not yet prefetched. `read` is
`read_in_bounds`, `dist` the distance (`none`: an error, which ends the expansion). -/
def expandLoop {D : Type} (read : Nat → Option V) (dist : V → Option D) :
    List Nat → List Nat → Option (List (Nat × D)) × List Access
  | [], _ => (some [], [])
  | i :: list, ahead =>
    let pre := nextPrefetch ahead
    match read i with
    | none => let r := expandLoop read dist list ahead.tail; (r.1, pre ++ r.2)
    | some v =>
      match dist v with
      | none => (none, pre ++ [Access.eval i])
      | some d =>
        let r := expandLoop read dist list ahead.tail
        (r.1.map ((i, d) :: ·), pre ++ Access.eval i :: r.2)

/-- `expand_beam_inner` (provider.rs 635–706): what is reported and the accesses made. -/
def expandInner {D : Type} (read : Nat → Option V) (dist : V → Option D) (lookahead : Nat) (list : List Nat) :
    Option (List (Nat × D)) × List Access :=
  let n := min lookahead list.length
  let r := expandLoop read dist list (if n = 0 then [] else list.drop n)
  (r.1, (list.take n).map Access.prefetch ++ r.2)

/-- `retain` with the predicate of the search, which records what it has seen (provider.rs 451–453): the ids kept and
the visited set. -/
def retainNew (total : Nat) : List Nat → List Nat → List Nat × List Nat
  | visited, [] => ([], visited)
  | visited, i :: l =>
    if i ∈ visited then retainNew total visited l
    else
      let r := retainNew total (visited ++ [i]) l
      (if i < total then i :: r.1 else r.1, r.2)

/-- `expand_beam` (provider.rs 436–478) over the lists of the beam: what is reported and the visited set; `none`: an error. -/
def expandBeam {D : Type} (total lookahead : Nat) (lists : Nat → List Nat) (read : Nat → Option V) (dist : V → Option D) :
    List Nat → List Nat → Option (List (Nat × D) × List Nat)
  | visited, [] => some ([], visited)
  | visited, b :: beam =>
    if b < total then
      let r := retainNew total visited (lists b)
      match (expandInner read dist lookahead r.1).1 with
      | none => none
      | some found =>
        match expandBeam total lookahead lists read dist r.2 beam with
        | none => none
        | some rest => some (found ++ rest.1, rest.2)
    else none

end Verif.Inmem.Live
