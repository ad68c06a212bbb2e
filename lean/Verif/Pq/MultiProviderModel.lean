import Verif.Pq.DistModel

/-!
# The provider with two product quantization schemas

Source: /repo/diskann-providers/src/model/graph/provider/async_/experimental/multi_pq_async.rs 28-204.

Tables, distances and compression are those of `Verif.Pq.DistModel` and `Verif.Pq.EncodeModel`. The random generator is the
sequence `draws` of the numbers it returns, and the provider counts how many it has taken; a poisoned lock is not modelled. A
slot is replaced in one step (`ArcSwap`), so operations of several threads have the effect of some order of them. A `none`
outside is a panic. -/

namespace Verif.Pq

open Verif.Vec

/-- The pivots as the floats that compression reads; `FixedChunkPQTable` keeps one table for both. -/
def toFl {K : Type} (t : Basic K) : Basic (Fl K) := ⟨⟨t.pivots.data.map Fl.num, t.pivots.nrows, t.pivots.ncols⟩, t.offsets⟩

/-- The errors, 82-88, 112-115, 122-130, 155-157. -/
inductive ProviderErr
  | outOfRange
  | dimension
  | compress (e : CompressErr)
  | equalVersions
  | query
deriving DecidableEq, Repr

/-- `TestMultiPQProviderAsync`, 28-40. `split` is `none` for NaN; `drawn` counts the random numbers taken so far. -/
structure MultiProvider (K : Type) where
  maxVectors : Nat
  startPoints : Nat
  vectors : List (Versioned Nat)
  tableNew : Basic K
  tableOld : Option (Basic K)
  metric : Metric
  split : Option K
  drawn : Nat

section

variable {K : Type} [Field K] [LinearOrder K]

/-- `new`, 43-67. -/
def MultiProvider.new (metric : Metric) (maxVectors startPoints : Nat) (tableNew : Basic K) (tableOld : Option (Basic K))
    (split : Option K) : MultiProvider K :=
  ⟨maxVectors, startPoints, List.replicate (maxVectors + startPoints) ⟨[], 0⟩, tableNew, tableOld, metric, split, 0⟩

/-- `num_pq_chunks`, 69-71. -/
def MultiProvider.numPqChunks (p : MultiProvider K) : Nat := p.tableNew.offsets.len

/-- `multi_table`, 73-78. -/
def MultiProvider.multiTable (p : MultiProvider K) : Option (MultiTable K Nat) :=
  match p.tableOld with
  | none => some (.one p.tableNew 1)
  | some old => MultiTable.mkTwo p.tableNew old 2 1

/-- `get_query_computer`, 80-96. -/
def MultiProvider.queryComputer (sqrt : K → K) (arch : Quant.Arch) (p : MultiProvider K) (query : List K) :
    Option (Except ProviderErr (MultiQuery K Nat)) :=
  match p.multiTable with
  | none => some (.error .equalVersions)
  | some t =>
    match MultiQuery.new sqrt arch t p.metric query with
    | none => none
    | some none => some (.error .query)
    | some (some c) => some (.ok c)

/-- `get_vector`, 109-116. -/
def MultiProvider.getVector (p : MultiProvider K) (id : Nat) : Except ProviderErr (Versioned Nat) :=
  match p.vectors[id]? with
  | some v => .ok v
  | none => .error .outOfRange

/-- `v <= self.split`, 148; false for NaN. -/
def drawsOld (split : Option K) (v : K) : Bool :=
  match split with
  | none => false
  | some s => v ≤ s

/-- The choice of a table, 135-153: the table, the version and how many random numbers have been taken afterwards. -/
def MultiProvider.choose (draws : Nat → K) (p : MultiProvider K) : Basic K × Nat × Nat :=
  match p.tableOld with
  | none => (p.tableNew, 1, p.drawn)
  | some old => if drawsOld p.split (draws p.drawn) then (old, 1, p.drawn + 1) else (p.tableNew, 2, p.drawn + 1)

/-- `set_vector`, 118-164: the result and the provider afterwards. -/
def MultiProvider.setVector (draws : Nat → K) (p : MultiProvider K) (id : Nat) (v : List (Fl K)) :
    Option (Except ProviderErr Unit × MultiProvider K) :=
  if id ≥ p.maxVectors + p.startPoints then some (.error .outOfRange, p)
  else if v.length ≠ p.tableNew.pivots.ncols then some (.error .dimension, p)
  else
    let (table, version, drawn) := p.choose draws
    match (toFl table).compressInto v (List.replicate table.offsets.len 0) with
    | none => none
    | some (.error e) => some (.error (.compress e), { p with drawn := drawn })
    | some (.ok code) =>
      if id < p.vectors.length then
        some (.ok (), { p with drawn := drawn, vectors := p.vectors.set id ⟨code, version⟩ })
      else none

/-- `NoneToInfinity`, 167-204. -/
def noneToInfinity (d : Option (Option K)) : Option (Fl K) :=
  match d with
  | none => none
  | some none => some .inf
  | some (some d) => some (.num d)

/-- The distance computer of `get_distance_computer`, 98-107, on a vector and a code, 175-183. -/
def MultiProvider.distance (sqrt : K → K) (arch : Quant.Arch) (p : MultiProvider K) (x : List K) (y : Versioned Nat) :
    Option (Except ProviderErr (Fl K)) :=
  match p.multiTable with
  | none => some (.error .equalVersions)
  | some t => (noneToInfinity (multiDistance sqrt arch p.metric t x y)).map .ok

/-- The same on two codes, 185-195. -/
def MultiProvider.distanceQq (sqrt : K → K) (arch : Quant.Arch) (p : MultiProvider K) (x y : Versioned Nat) :
    Option (Except ProviderErr (Fl K)) :=
  match p.multiTable with
  | none => some (.error .equalVersions)
  | some t => (noneToInfinity (multiDistanceQq sqrt arch p.metric t x y)).map .ok

/-- The query computer's answer for a code, 197-204. -/
def queryDistance (sqrt : K → K) (arch : Quant.Arch) (c : MultiQuery K Nat) (y : Versioned Nat) : Option (Fl K) :=
  noneToInfinity (c.evaluate sqrt arch y)

/-- A sequence of calls of `set_vector`. -/
def MultiProvider.run (draws : Nat → K) (p : MultiProvider K) : List (Nat × List (Fl K)) → Option (MultiProvider K)
  | [] => some p
  | (id, v) :: rest =>
    match p.setVector draws id v with
    | none => none
    | some (_, p) => p.run draws rest

end

end Verif.Pq
