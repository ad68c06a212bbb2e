import Verif.Pq.EncodeSpec

/-! # What distances to product quantization codes mean -/

namespace Verif.Pq.Spec

variable {K : Type} [Field K] [LinearOrder K]

/-- The table with the given pivots, cut into chunks. -/
abbrev table (P : List (List K)) (o : Offsets) : Basic K := ⟨mat P o.dim, o⟩

/-- A code: one pivot number for each chunk. -/
structure Code (P : List (List K)) (o : Offsets) (code : List Nat) : Prop where
  len : code.length = o.len
  lt : ∀ c ∈ code, c < P.length

/-- The vector a code stands for: each chunk is taken from the pivot the code names. -/
def decode (P : List (List K)) (o : Offsets) (code : List Nat) : List K :=
  (List.range o.len).flatMap (fun i => piece o i (P.getD (code.getD i 0) []))

/-- The distance of two vectors; the metric for normalized vectors is the cosine one, not assuming that the vectors are
normalized. -/
def metricDist (sqrt : K → K) (m : Vec.Metric) (x y : List K) : K :=
  match m with
  | .l2 => Vec.Spec.sqDist x y
  | .innerProduct => -Vec.Spec.dot x y
  | .cosine => 1 - Vec.Spec.cosine sqrt x y
  | .cosineNormalized => 1 - Vec.Spec.cosine sqrt x y

/-- The metric that a query computer uses for a metric: squared distance in place of the cosine of normalized vectors. -/
def queryMetric : Vec.Metric → Vec.Metric
  | .cosineNormalized => .l2
  | m => m

/-- The distance that disk search uses for a metric before it reads the full vectors: squared distance for every metric but
inner product. -/
def diskDist (m : Vec.Metric) (x y : List K) : K :=
  match m with
  | .innerProduct => -Vec.Spec.dot x y
  | _ => Vec.Spec.sqDist x y

/-- Sum of one entry for each chunk, added one after the other: entry `code i` of row `i` of a table with `stride` entries per
row. -/
def tableSum {R : Type} [Zero R] [Add R] (table : List R) (stride n : Nat) (code : Nat → Nat) : R :=
  (List.range n).foldl (fun acc i => acc + table.getD (i * stride + code i) 0) 0

/-- Code number `id` of consecutive codes of `n` bytes. -/
def codeAt (data : List Nat) (n id : Nat) : List Nat := (data.drop (id * n)).take n

section Versions

variable {V : Type} [DecidableEq V]

/-- Schemas schemas with their versions. -/
structure Schemas (K V : Type) where
  newPivots : List (List K)
  newOffsets : Offsets
  newVersion : V
  oldPivots : List (List K)
  oldOffsets : Offsets
  oldVersion : V

/-- The vector a versioned code stands for, if its version is one of the two. -/
def Schemas.decode (s : Schemas K V) (version : V) (code : List Nat) : Option (List K) :=
  if version = s.newVersion then some (Spec.decode s.newPivots s.newOffsets code)
  else if version = s.oldVersion then some (Spec.decode s.oldPivots s.oldOffsets code)
  else none

/-- Both schemas are for vectors of dimension `dim`, and their versions differ. -/
structure Schemas.Ok (s : Schemas K V) (dim : Nat) : Prop where
  new : Partition s.newOffsets
  old : Partition s.oldOffsets
  newDim : s.newOffsets.dim = dim
  oldDim : s.oldOffsets.dim = dim
  newRows : ∀ p ∈ s.newPivots, p.length = dim
  oldRows : ∀ p ∈ s.oldPivots, p.length = dim
  differ : s.newVersion ≠ s.oldVersion

/-- A code that, if its version is known, is a code of that schema. -/
structure Schemas.Valid (s : Schemas K V) (version : V) (code : List Nat) : Prop where
  new : version = s.newVersion → Code s.newPivots s.newOffsets code
  old : version = s.oldVersion → Code s.oldPivots s.oldOffsets code

end Versions

end Verif.Pq.Spec
