import Verif.Tools.BitmapModel
import Mathlib.Data.List.Dedup
import Mathlib.Data.List.Sort
import Mathlib.Data.Rat.Defs
import Mathlib.Algebra.Order.Ring.Unbundled.Rat

/-!
# The specificities of filters

Source: /repo/diskann-tools/src/bin/compute_specificities.rs 35-113 (`main`).

The files have been read (C134). Doubles are rationals; the six decimals of the output are not modelled, nor a failing output
file. A bit set is a list of ids, its size the number of different ones. -/

namespace Verif.Tools

open Verif.Label

/-- The statistics printed, 95-111. -/
structure SpecStats where
  average : Rat
  median : Rat
  min : Rat
  max : Rat
deriving DecidableEq, Repr

/-- How the program ends: `exit` is the exit with code 1. -/
inductive SpecOutcome
  | exit
  | panic
  | ok (lines : List Rat) (stats : Option SpecStats)
deriving DecidableEq

/-- The closure of 70-73. -/
def specificity (total : Nat) (bitmap : List Nat) : Rat := (bitmap.dedup.length : Rat) / (total : Rat)

/-- The order of 96. -/
def specSort (values : List Rat) : List Rat := values.insertionSort (· ≤ ·)

/-- The median of the sorted values, 99-104. -/
def specMedian (sorted : List Rat) : Rat :=
  if sorted.length % 2 = 0 then (sorted.getD (sorted.length / 2 - 1) 0 + sorted.getD (sorted.length / 2) 0) / 2
  else sorted.getD (sorted.length / 2) 0

/-- The statistics, 95-111. -/
def specStats (values : List Rat) : Option SpecStats :=
  if values.isEmpty then none
  else
    let sorted := specSort values
    some ⟨sorted.sum / (sorted.length : Rat), specMedian sorted, sorted.getD 0 0, sorted.getD (sorted.length - 1) 0⟩

/-- `main`, 35-113: the lines are written in the order of the queries, before the values are sorted. -/
def specificities (docs : List (Nat × Json)) (queries : List (Nat × Expr)) : SpecOutcome :=
  if docs.length = 0 then .exit
  else
    match computeBitmaps docs queries with
    | .err => .exit
    | .panic => .panic
    | .ok bitmaps =>
      let values := bitmaps.map (specificity docs.length)
      .ok values (specStats values)

end Verif.Tools
