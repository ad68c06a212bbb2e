/-
Model of the quantization backfill ranges and of the start point neighbour cache of the Garnet provider.

Source: /repo/diskann-garnet/src/provider.rs
-/
namespace Verif.Garnet

/-- `as u32`. -/
def asU32 (n : Nat) : Nat := n % 4294967296

/-- The id range of one backfill task (`backfill_quant_vectors`, provider.rs 611-636): `none` when the task
bails out (`max_id` is `u32::MAX`, or too many tasks), else `start_id` and `end_id`. -/
def backfillRange (maxId taskCount taskIdx : Nat) : Option (Nat × Nat) :=
  if maxId ≥ 4294967295 then none
  else
    let tc := min taskCount (maxId + 1)
    if taskIdx ≥ tc then none
    else
      let work := (maxId + 1 + tc - 1) / tc
      some (asU32 (work * taskIdx), asU32 (min (work * (taskIdx + 1)) (maxId + 1)))

/-- Is the id processed by the task? -/
def backfills (maxId taskCount taskIdx id : Nat) : Prop :=
  ∃ a b, backfillRange maxId taskCount taskIdx = some (a, b) ∧ a ≤ id ∧ id < b

/-- Stored neighbour records and the cached list of vertex 0.  A record has `max_degree + 1` cells, the last
holds the length. -/
structure NState where
  recs : Nat → Option (List Nat)
  cache : Option (List Nat)

/-- `read_single_iid` of a record followed by `guard.finish(len)` (provider.rs 862-874). -/
def recList (maxDegree : Nat) (r : List Nat) : List Nat := r.take ((r[maxDegree]?).getD 0)

/-- `get_neighbors` (provider.rs 846-874); `none` is a missing record. -/
def NState.get (maxDegree : Nat) (s : NState) (id : Nat) : Option (List Nat) :=
  match (if id = 0 then s.cache else none) with
  | some c => some c
  | none => (s.recs id).map (recList maxDegree)

/-- The record built by `set_neighbors` (provider.rs 883-885); the scratch beyond the list holds arbitrary
old values `junk`. -/
def mkRec (maxDegree : Nat) (ns junk : List Nat) : List Nat :=
  ((ns ++ junk).take maxDegree) ++ [ns.length]

/-- `set_neighbors` (provider.rs 876-905) when the storage call succeeds.  Modelled for lists of at most
`max_degree` (longer ones overwrite the length cell or panic). -/
def NState.set (maxDegree : Nat) (s : NState) (id : Nat) (ns junk : List Nat) : NState :=
  { recs := fun j => if j = id then some (mkRec maxDegree ns junk) else s.recs j
    cache := if id = 0 then some ns else s.cache }

/-- The loop of `append_vector` (provider.rs 919-932): the record and the length, and whether the loop
returned early. -/
def appendLoop (maxDegree : Nat) : List Nat → List Nat → Nat → List Nat × Nat × Bool
  | [], data, len => (data, len, false)
  | n :: ns, data, len =>
    if len = maxDegree then (data, len, true)
    else if (data.take len).contains n then appendLoop maxDegree ns data len
    else appendLoop maxDegree ns ((data.set len n).set maxDegree (len + 1)) (len + 1)

/-- `append_vector` (provider.rs 907-944) when the storage call succeeds: a missing record starts as zeros;
an early return skips the cache update. -/
def NState.append (maxDegree : Nat) (s : NState) (id : Nat) (ns : List Nat) : NState :=
  let data := (s.recs id).getD (List.replicate (maxDegree + 1) 0)
  let (data', len, early) := appendLoop maxDegree ns data (min ((data[maxDegree]?).getD 0) maxDegree)
  { recs := fun j => if j = id then some data' else s.recs j
    cache := if early then s.cache
      else if id = 0 then s.cache.map (fun _ => data'.take len) else s.cache }

/-- `maybe_set_start_point` (provider.rs 325-413) for the neighbour cache: load the stored list, or create an
empty one. -/
def NState.start (maxDegree : Nat) (s : NState) : NState :=
  match s.recs 0 with
  | some r => { s with cache := some (recList maxDegree r) }
  | none =>
    { recs := fun j => if j = 0 then some (List.replicate (maxDegree + 1) 0) else s.recs j
      cache := some [] }

/-- The operations on neighbour lists; `restart` drops the cache. -/
inductive NOp
  | set (id : Nat) (ns junk : List Nat)
  | append (id : Nat) (ns : List Nat)
  | start
  | restart

def NState.apply (maxDegree : Nat) (s : NState) : NOp → NState
  | .set id ns junk => s.set maxDegree id ns junk
  | .append id ns => s.append maxDegree id ns
  | .start => s.start maxDegree
  | .restart => { s with cache := none }

def NState.run (maxDegree : Nat) (s : NState) (ops : List NOp) : NState := ops.foldl (NState.apply maxDegree) s

/-- Nothing stored. -/
def NState.empty : NState := ⟨fun _ => none, none⟩

end Verif.Garnet
