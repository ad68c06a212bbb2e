import Mathlib.Algebra.Field.Basic
import Mathlib.Algebra.Order.Field.Basic
import Verif.Disk.VectorFileModel

/-!
# Relative contrast, and subsampling a vector file

Sources: /repo/diskann-tools/src/utils/relative_contrast.rs 13-101; src/bin/subsample_bin.rs 56-112.

Numbers are elements of a linearly ordered field: arithmetic is exact, and a division by zero gives infinity or a NaN.  The
random draws are arbitrary functions.  A panic is `none`.  The files of the first tool are given by their rows.
-/

namespace Verif.Tools.Contrast

open Verif.Disk

variable {K : Type} [Field K] [LinearOrder K]

/-- A float that is not negative. -/
inductive Fl (K : Type)
  | fin (x : K)
  | inf
  | nan
deriving DecidableEq, Repr

/-- Division of finite numbers that are not negative. -/
def div (x y : K) : Fl K := if y ≠ 0 then .fin (x / y) else if x = 0 then .nan else .inf

/-- Division of floats. -/
def Fl.div : Fl K → Fl K → Fl K
  | .fin x, .fin y => Contrast.div x y
  | .fin _, .inf => .fin 0
  | .inf, .fin _ => .inf
  | _, _ => .nan

/-- Addition. -/
def Fl.add : Fl K → Fl K → Fl K
  | .fin x, .fin y => .fin (x + y)
  | .nan, _ => .nan
  | _, .nan => .nan
  | _, _ => .inf

/-- `squared_distance`, 13-24: `zip` stops at the shorter one. -/
def squaredDistance (x y : List K) : K := ((x.zip y).map (fun p => (p.1 - p.2) * (p.1 - p.2))).sum

/-- The sum in `average_squared_distance`, 32-36; `pick s` is the draw number `s`. -/
def sampleSum (query : List K) (base : List (List K)) (pick : Nat → Nat) : Nat → Option K
  | 0 => some 0
  | s + 1 => do
    let sum ← sampleSum query base pick s
    if base.length = 0 then none
    else do
      let b ← base[pick s]?
      some (sum + squaredDistance query b)

/-- `average_squared_distance`, 26-38. -/
def averageSquaredDistance (query : List K) (base : List (List K)) (pick : Nat → Nat) (samples : Nat) : Option (Fl K) := do
  let sum ← sampleSum query base pick samples
  some (div sum (samples : K))

/-- The sum over the ground truth, 79-82. -/
def truthSum (query : List K) (base : List (List K)) : List Nat → Option K
  | [] => some 0
  | idx :: ids => do
    let b ← base[idx]?
    let sum ← truthSum query base ids
    some (squaredDistance query b + sum)

/-- The body of the loop over the queries, 74-88. -/
def contrastOf (base : List (List K)) (gt : List (List Nat)) (recallAt samples : Nat) (pick : Nat → Nat) (i : Nat)
    (q : List K) : Option (Fl K) := do
  let numerator ← averageSquaredDistance q base pick samples
  let row ← gt[i]?
  let sum ← truthSum q base (row.take recallAt)
  let denominator := div sum (recallAt : K)
  some (numerator.div denominator)

/-- The loop, 74-90. -/
def contrastLoop (base : List (List K)) (gt : List (List Nat)) (recallAt samples : Nat) (pick : Nat → Nat → Nat) (nq : Nat) :
    Nat → List (List K) → Fl K → Option (Fl K)
  | _, [], mean => some mean
  | i, q :: qs, mean => do
    let rc ← contrastOf base gt recallAt samples (pick i) i q
    contrastLoop base gt recallAt samples pick nq (i + 1) qs (mean.add (rc.div (.fin (nq : K))))

/-- `compute_relative_contrast`, 40-104. -/
def relativeContrast (base queries : List (List K)) (gt : List (List Nat)) (recallAt samples : Nat)
    (pick : Nat → Nat → Nat) : Option (Fl K) :=
  contrastLoop base gt recallAt samples pick queries.length 0 queries (.fin 0)

/-! ## Subsampling -/

/-- The result of `subsample_bin`: refused, or failed with what is in the output file, or done. -/
inductive Sub
  | badProbability
  | badInput
  | failed (file : List Byte)
  | done (file : List Byte) (count : Nat)
deriving DecidableEq

/-- `run_for_type`, subsample_bin.rs 56-112; a NaN probability is in no range.  `p i` is the draw for row `i`; `sz` is the
size of an element.  The count is that of the callbacks. -/
def subsample (sz : Nat) (file : List Byte) (probability : Option K) (p : Nat → K) : Sub :=
  match probability with
  | none => .badProbability
  | some pr =>
    if 0 ≤ pr ∧ pr ≤ 1 then
      match readMetadata file, Sampler.new sz file with
      | some (_, dims), some s =>
        let indices := (List.range s.npts).filter (fun i => decide (p i < pr))
        match metadataBytes s.npts dims with
        | none => .failed []
        | some head =>
          let (rows, ok, _) := s.readVectors (fun _ => true) [] indices
          let ops := WOp.write head :: rows.map (fun r => .write r)
          if ok then
            match metadataBytes rows.length dims with
            | none => .failed (specWrites ([], 0) (ops ++ [.reset])).1
            | some head' => .done (specWrites ([], 0) (ops ++ [.reset, .write head'])).1 rows.length
          else .failed (specWrites ([], 0) ops).1
      | _, _ => .badInput
    else .badProbability

end Verif.Tools.Contrast
