/-
Model of how a search of a Garnet vector set expands a beam of nodes, with and without a filter, and of how pruning
fetches vectors.

Source: /repo/diskann-garnet/src/provider.rs 846-874, 1213-1253, 1298-1358, 1552-1709, 1809-1867, garnet.rs 283-307,
510-522.

Ids are natural numbers, 0 is the start point.  The store is read at one moment: writes during an expansion are not
modelled.  For each key of a batch, in order, Garnet calls back with the number of the key and its value, if it has one.
A predicate is any function with a state.  An index out of range is a panic, `none`.
-/
namespace Verif.Garnet.Beam

variable {V D σ O β : Type}

/-- What a search reads: neighbor lists (`none`: the read fails), attributes, vectors, and the cached start point. -/
structure Data (V : Type) where
  neighbors : Nat → Option (List Nat)
  attrs : Nat → Option (List Nat)
  vector : Nat → Option V
  start : Option V

/-- A predicate (/repo/diskann/src/graph/glue.rs 488-522): on an id, on an id with an update, on an accepted id with an
update. -/
structure Pred (σ : Type) where
  eval : σ → Nat → Bool
  evalMut : σ → Nat → Bool × σ
  evalAccept : σ → Nat → Bool × σ

/-- `NotInMut` (glue.rs 524-561): a set of visited ids. -/
def notIn : Pred (List Nat) where
  eval s id := !s.contains id
  evalMut s id := if s.contains id then (false, s) else (true, id :: s)
  evalAccept s id := if s.contains id then (false, s) else (true, id :: s)

/-- `read_multi_lpiid` (garnet.rs 283-307): keys are pairs of a length and an id; the calls of the callback. -/
def readMulti (ids : List Nat) (get : Nat → Option β) : List (Nat × β) :=
  (List.range (ids.length / 2)).filterMap fun i => (ids[2 * i + 1]?).bind fun id => (get id).map fun b => (i, b)

/-- The loop over the neighbors of one node (provider.rs 1317-1329, 1575-1586): the start point is reported at once, the
other ids that the predicate lets through are gathered.  `false`: the start point is not cached. -/
def collect (p : Pred σ) (start : Option D) (emit : D → O) : σ → List Nat → List Nat → List O →
    Bool × σ × List Nat × List O
  | s, [], ids, out => (true, s, ids, out)
  | s, id :: rest, ids, out =>
    match p.evalMut s id with
    | (false, s) => collect p start emit s rest ids out
    | (true, s) =>
      if id = 0 then
        match start with
        | none => (false, s, ids, out)
        | some d => collect p start emit s rest ids (out ++ [emit d])
      else collect p start emit s rest (ids ++ [4, id]) out

/-- What the callbacks of a batch of vectors do (provider.rs 1344-1352, 1607-1620, 1695-1703). -/
def report (mk : Nat → Nat → V → Option O) (ids : List Nat) : List (Nat × V) → Option (List O)
  | [] => some []
  | (i, v) :: rest =>
    match (ids[2 * i + 1]?).bind fun id => mk i id v with
    | none => none
    | some o => (report mk ids rest).map (o :: ·)

/-- `expand_beam` (provider.rs 1298-1358): what is reported, the predicate after it, and whether there was no error. -/
def expandBeam (dist : V → D) (x : Data V) (p : Pred σ) : σ → List Nat → List (Nat × D) →
    Option (Bool × σ × List (Nat × D))
  | s, [], out => some (true, s, out)
  | s, n :: ns, out =>
    match collect p (x.start.map dist) (fun d => (0, d)) s ((x.neighbors n).getD []) [] out with
    | (false, s, _, out) => some (false, s, out)
    | (true, s, ids, out) =>
      match report (fun _ id v => some (id, dist v)) ids (readMulti ids x.vector) with
      | none => none
      | some new => expandBeam dist x p s ns (out ++ new)

/-- One callback of `compute_filter_decisions` (provider.rs 1249-1251). -/
def decideOne (filter : List Nat → Bool) (acc : Option (List Bool)) (c : Nat × List Nat) : Option (List Bool) :=
  acc.bind fun l => if c.1 < l.length then some (l.set c.1 (filter c.2)) else none

/-- `compute_filter_decisions` (provider.rs 1233-1253). -/
def decisions (filter : List Nat → Bool) (default : Bool) (ids : List Nat) (attrs : Nat → Option (List Nat)) :
    Option (List Bool) :=
  (readMulti ids attrs).foldl (decideOne filter) (some (List.replicate (ids.length / 2) default))

/-- `expand_beam_filtered` (provider.rs 1552-1625): ids come with the decision, accepted or not. -/
def expandFiltered (dist : V → D) (filter : List Nat → Bool) (x : Data V) (p : Pred σ) :
    σ → List Nat → List (Nat × Bool × D) → Option (Bool × σ × List (Nat × Bool × D))
  | s, [], out => some (true, s, out)
  | s, n :: ns, out =>
    match collect p (x.start.map dist) (fun d => (0, false, d)) s ((x.neighbors n).getD []) [] out with
    | (false, s, _, out) => some (false, s, out)
    | (true, s, ids, out) =>
      if ids = [] then expandFiltered dist filter x p s ns out
      else
        match decisions filter (filter []) ids x.attrs with
        | none => none
        | some ds =>
          match report (fun i id v => (ds[i]?).map fun b => (id, b, dist v)) ids (readMulti ids x.vector) with
          | none => none
          | some new => expandFiltered dist filter x p s ns (out ++ new)

/-- The ids that pass the predicate (provider.rs 1649-1654). -/
def gather (p : Pred σ) (s : σ) : List Nat → List Nat
  | [] => []
  | id :: rest => if id ≠ 0 ∧ p.eval s id = true then 4 :: id :: gather p s rest else gather p s rest

/-- Accepted ids are moved to the front of the same buffer (provider.rs 1662-1677). -/
def compact (p : Pred σ) : σ → List Nat → Nat → Nat → List Bool → Option (σ × List Nat)
  | s, ids, _, index, [] => some (s, ids.take (index * 2))
  | s, ids, i, index, m :: ms =>
    if m then
      match ids[i * 2 + 1]? with
      | none => none
      | some id =>
        match p.evalAccept s id with
        | (false, s) => compact p s ids (i + 1) index ms
        | (true, s) =>
          if index * 2 + 1 < ids.length then
            compact p s ((ids.set (index * 2) 4).set (index * 2 + 1) id) (i + 1) (index + 1) ms
          else none
    else compact p s ids (i + 1) index ms

/-- `expand_beam_accept_only` (provider.rs 1627-1709). -/
def expandAccept (dist : V → D) (filter : List Nat → Bool) (x : Data V) (p : Pred σ) :
    σ → List Nat → List (Nat × D) → Option (Bool × σ × List (Nat × D))
  | s, [], out => some (true, s, out)
  | s, n :: ns, out =>
    let ids := gather p s ((x.neighbors n).getD [])
    if ids = [] then expandAccept dist filter x p s ns out
    else
      match decisions filter (filter []) ids x.attrs with
      | none => none
      | some ds =>
        match compact p s ids 0 0 ds with
        | none => none
        | some (s, ids) =>
          if ids = [] then expandAccept dist filter x p s ns out
          else
            match report (fun _ id v => some (id, dist v)) ids (readMulti ids x.vector) with
            | none => none
            | some new => expandAccept dist filter x p s ns (out ++ new)

/-- The working set with one more vector. -/
def put (m : Nat → Option V) (id : Nat) (v : V) : Nat → Option V := fun j => if j = id then some v else m j

/-- The loop of `fill` (provider.rs 1817-1840) on the working set after room was made in it: the start point comes from
the cache, other missing ids are gathered.  `none`: the error of a start point that is not cached. -/
def fillLoop (x : Data V) : (Nat → Option V) → List Nat → List Nat → Option ((Nat → Option V) × List Nat)
  | m, [], ids => some (m, ids)
  | m, id :: rest, ids =>
    if id = 0 then
      match m 0 with
      | some _ => fillLoop x m rest ids
      | none =>
        match x.start with
        | none => none
        | some v => fillLoop x (put m 0 v) rest ids
    else if (m id).isSome then fillLoop x m rest ids
    else fillLoop x m rest (ids ++ [4, id])

/-- The callbacks of `fill` (provider.rs 1855-1863). -/
def insertAll (ids : List Nat) : (Nat → Option V) → List (Nat × V) → Option (Nat → Option V)
  | m, [] => some m
  | m, (i, v) :: rest =>
    match ids[2 * i + 1]? with
    | none => none
    | some id => insertAll ids (put m id v) rest

/-- `fill` (provider.rs 1809-1867): outer `none` is a panic, inner `none` an error. -/
def fill (x : Data V) (m : Nat → Option V) (ids : List Nat) : Option (Option (Nat → Option V)) :=
  match fillLoop x m ids [] with
  | none => some none
  | some (m, keys) => (insertAll keys m (readMulti keys x.vector)).map some

end Verif.Garnet.Beam
