import Mathlib.Data.Rat.Defs
import Mathlib.Data.List.Dedup
/-
Model of recall and average precision.

Source: /repo/diskann-benchmark-core/src/recall.rs.

Ids are naturals.  Distances are any type with the comparison `==` of `f32` (not reflexive on NaN) given as a
function.  The average is computed in rationals: the two conversions to `f64`, the division and the sum are exact
here.  `u64` hit counts do not overflow.
-/
namespace Verif.Bench

/-- `ComputeRecallError` (recall.rs 31-45), without the numbers. -/
inductive RecallError
  | rowsMismatch
  | distanceRowsMismatch
  | kAndN
  | notEnoughGroundTruth
  | groundTruthDistanceMismatch
deriving DecidableEq, Repr

/-- `GroundTruthMode` (recall.rs 122-126). -/
inductive Mode
  | fixed
  | flexible
deriving DecidableEq, Repr

section
variable {D : Type} (deq : D → D → Bool)

/-- The loop that appends ties (recall.rs 248-254), on the pairs after the first `k`. -/
def tieLoop (last : D) : List (D × Nat) → List Nat → List Nat
  | [], acc => acc
  | (d, g) :: rest, acc => if deq d last then tieLoop last rest (acc.insert g) else acc

/-- The ground truth of a row as a set (recall.rs 235-255).  An index past the distances is a panic, `none`. -/
def rowTruth (k : Nat) (gt : List Nat) : Option (List D) → Option (List Nat)
  | none => some (gt.take k).dedup
  | some ds =>
    match ds[k - 1]? with
    | none => none
    | some last => some (tieLoop deq last ((ds.zip gt).drop k) (gt.take k).dedup)

/-- The hits of a row (recall.rs 257-265). -/
def rowHits (k n : Nat) (truth result : List Nat) : Nat :=
  min ((truth.filter (fun g => (result.take n).contains g)).length) k

/-- `*hits_by_k.entry(k).or_insert(0) += r` on a `BTreeMap` (recall.rs 267). -/
def addHits (k r : Nat) : List (Nat × Nat) → List (Nat × Nat)
  | [] => [(k, r)]
  | (k', h) :: rest =>
    if k = k' then (k', h + r) :: rest
    else if k < k' then (k, r) :: (k', h) :: rest
    else (k', h) :: addHits k r rest

/-- The main loop (recall.rs 221-269): hits by denominator and the number of scored queries. -/
def knnLoop (kk n : Nat) : List (List Nat × List Nat × Option (List D)) → List (Nat × Nat) → Nat →
    Option (List (Nat × Nat) × Nat)
  | [], m, cnt => some (m, cnt)
  | (gt, result, ds) :: rest, m, cnt =>
    if min gt.length kk = 0 then knnLoop kk n rest m cnt
    else
      match rowTruth deq (min gt.length kk) gt ds with
      | none => none
      | some truth =>
        knnLoop kk n rest (addHits (min gt.length kk) (rowHits (min gt.length kk) n truth result) m) (cnt + 1)

/-- The final division (recall.rs 285-295). -/
def average (m : List (Nat × Nat)) (cnt : Nat) : Rat :=
  if cnt = 0 then 0 else (m.map (fun p => (p.2 : Rat) / ((p.1 : Rat) * (cnt : Rat)))).sum

/-- The rows of the inputs, paired. -/
def pairRows : List (List Nat) → List (List Nat) → Option (List (List D)) → List (List Nat × List Nat × Option (List D))
  | g :: gs, r :: rs, none => (g, r, none) :: pairRows gs rs none
  | g :: gs, r :: rs, some (d :: ds) => (g, r, some d) :: pairRows gs rs (some ds)
  | _, _, _ => []

/-- `knn` (recall.rs 143-303).  The outer `none` is a panic. -/
def knn (gt : List (List Nat)) (dists : Option (List (List D))) (results : List (List Nat)) (kk n : Nat) (mode : Mode) :
    Option (Except RecallError Rat) :=
  if kk > n then some (.error .kAndN)
  else if results.length ≠ gt.length then some (.error .rowsMismatch)
  else if mode = .fixed ∧ gt.any (fun r => r.length < kk) then some (.error .notEnoughGroundTruth)
  else if dists.any (fun ds => ds.length != results.length) then some (.error .distanceRowsMismatch)
  else if dists.any (fun ds => (ds.zip gt).any (fun p => p.2.length != p.1.length)) then
    some (.error .groundTruthDistanceMismatch)
  else
    match knnLoop deq kk n (pairRows gt results dists) [] 0 with
    | none => none
    | some (m, cnt) => some (.ok (average m cnt))

end

/-- The loop of `average_precision` (recall.rs 341-353). -/
def apLoop : List (List Nat × List Nat) → Nat → Nat → Nat × Nat
  | [], rep, tot => (rep, tot)
  | (result, gt) :: rest, rep, tot =>
    apLoop rest (rep + (gt.filter (fun g => result.contains g)).length) (tot + gt.length)

/-- `average_precision` (recall.rs 319-362): `none` is NaN, from `0 / 0`. -/
def averagePrecision (results gt : List (List Nat)) : Except Unit (Option Rat) :=
  if results.length ≠ gt.length then .error ()
  else
    let p := apLoop (results.zip gt) 0 0
    .ok (if p.2 = 0 then none else some ((p.1 : Rat) / (p.2 : Rat)))

end Verif.Bench
