/-
Model of what a Garnet vector set reports: the buffers that results are written to, the steps after a search,
the random members and the neighbours of an element.

Source: /repo/diskann-garnet/src/lib.rs, provider.rs

Simplifications: lengths are natural numbers (an id of 2^32 bytes or more would have its length cut);
`remaining * id_space` does not saturate (both are at most 2^32); storage reads do not fail other than for missing
records; distances are elements of a linear order (no NaN).
-/
namespace Verif.Garnet.Report

/-! ### The output buffers -/

/-- `SearchResults` (lib.rs 122-127): the two buffers of the caller, and how much of them is filled. -/
structure Buf (D : Type) where
  ids : List UInt8
  dists : List D
  index : Nat
  idIndex : Nat

/-- `SearchResults::new` (lib.rs 131-142). -/
def Buf.new {D : Type} (ids : List UInt8) (dists : List D) : Buf D := ⟨ids, dists, 0, 0⟩

/-- The four bytes of a length (lib.rs 164-166, little endian). -/
def le32 (n : Nat) : List UInt8 :=
  [UInt8.ofNat n, UInt8.ofNat (n / 256), UInt8.ofNat (n / 65536), UInt8.ofNat (n / 16777216)]

/-- `copy_from_slice` into a part of a buffer. -/
def writeAt {α : Type} (l : List α) (pos : Nat) (xs : List α) : List α :=
  l.take pos ++ xs ++ l.drop (pos + xs.length)

/-- `push` (lib.rs 156-180); the answer is `is_full`. -/
def Buf.push {D : Type} (b : Buf D) (id : List UInt8) (d : D) : Buf D × Bool :=
  if b.index ≥ b.dists.length || b.idIndex + 4 + id.length > b.ids.length then (b, true)
  else
    let ids := writeAt b.ids b.idIndex (le32 id.length)
    let ids := writeAt ids (b.idIndex + 4) id
    let b' : Buf D := ⟨ids, b.dists.set b.index d, b.index + 1, b.idIndex + 4 + id.length⟩
    (b', b'.index ≥ b'.dists.length || b'.idIndex ≥ b'.ids.length)

/-- `extend` (lib.rs 186-199): push until the buffer is full. -/
def Buf.extend {D : Type} (b : Buf D) : List (List UInt8 × D) → Buf D
  | [] => b
  | (id, d) :: rest =>
    let (b', full) := b.push id d
    if full then b' else b'.extend rest

/-! ### After a search -/

/-- `CopyExternalIds` (provider.rs 1420-1455): candidates without a name are skipped, the first full answer ends
it. -/
def copyExternal {D : Type} (ext : Nat → Option (List UInt8)) (b : Buf D) : List (Nat × D) → Buf D
  | [] => b
  | (i, d) :: rest =>
    match ext i with
    | none => copyExternal ext b rest
    | some id =>
      let (b', full) := b.push id d
      if full then b' else copyExternal ext b' rest

/-- `Pipeline<FilterStartPoints, Pipeline<Rerank, CopyExternalIds>>` (provider.rs 1457-1529, 1955-1958; glue.rs
729-772): the start point is dropped; in a quantized search the candidates get the distances of their stored
vectors and are sorted by them. -/
def report {V D : Type} (quantized : Bool) (vec : Nat → Option V) (dist : V → D) (sort : List (Nat × D) → List (Nat × D))
    (ext : Nat → Option (List UInt8)) (b : Buf D) (candidates : List (Nat × D)) : Buf D :=
  let cs := candidates.filter fun p => p.1 ≠ 0
  if quantized then
    copyExternal ext b (sort (cs.filterMap fun p => (vec p.1).map fun v => (p.1, dist v)))
  else copyExternal ext b cs

/-! ### Random members -/

/-- The state of `random_members`: the ids already considered, the output, and how many are still wanted. -/
structure Draw (D : Type) where
  chosen : List Nat
  out : Buf D
  remaining : Nat

/-- The loop over one sample (provider.rs 738-754): the new state, and whether the call returns. -/
def drawSample {D : Type} (zero : D) (ext : Nat → Option (List UInt8)) : List Nat → Draw D → Draw D × Bool
  | [], st => (st, false)
  | i :: is, st =>
    if i ∈ st.chosen then drawSample zero ext is st
    else
      let st := { st with chosen := i :: st.chosen }
      match ext i with
      | none => drawSample zero ext is st
      | some id =>
        let (out, full) := st.out.push id zero
        let st := { st with out := out, remaining := st.remaining - 1 }
        if st.remaining = 0 || full then (st, true) else drawSample zero ext is st

/-- The outer loop (provider.rs 737-761), `none` if it does not end within the fuel.  `samples k n` is what the
`k`-th call to `sample` returns for the batch size `n`. -/
def drawRounds {D : Type} (zero : D) (ext : Nat → Option (List UInt8)) (idSpace : Nat) (samples : Nat → Nat → List Nat) :
    Nat → Nat → Nat → Draw D → Option (Draw D)
  | 0, _, _, _ => none
  | fuel + 1, k, batch, st =>
    if st.remaining = 0 then some st
    else
      let (st, done) := drawSample zero ext (samples k batch) st
      if done then some st
      else if batch = idSpace then some st
      else drawRounds zero ext idSpace samples fuel (k + 1) (min (batch * 2) idSpace) st

/-- The first batch size (provider.rs 732-735). -/
def firstBatch (remaining idSpace total : Nat) : Nat :=
  max 1 (min idSpace ((remaining * idSpace + max total 1 - 1) / max total 1))

/-- `random_members` (provider.rs 717-764): `maxId` and `total` are `max_id` and `total_used` of the free space
map. -/
def randomMembers {D : Type} (zero : D) (ext : Nat → Option (List UInt8)) (maxId total : Nat)
    (samples : Nat → Nat → List Nat) (count : Nat) (b : Buf D) : Option (Draw D) :=
  let idSpace := maxId + 1
  let remaining := min count total
  drawRounds zero ext idSpace samples (idSpace + 1) 0 (firstBatch remaining idSpace total) ⟨[], b, remaining⟩

/-! ### Neighbours of an element -/

/-- `neighbors` (provider.rs 766-794) after the id and the list were read: an unreadable neighbour is an error. -/
def neighborsOf {V D : Type} (vec : Nat → Option V) (ext : Nat → Option (List UInt8)) (dist : V → D) :
    List Nat → Option (List (List UInt8 × D))
  | [] => some []
  | i :: is =>
    if i = 0 then neighborsOf vec ext dist is
    else
      match vec i with
      | none => none
      | some v =>
        match ext i with
        | none => none
        | some id => (neighborsOf vec ext dist is).map ((id, dist v) :: ·)

end Verif.Garnet.Report
