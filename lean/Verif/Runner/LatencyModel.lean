import Mathlib.Data.List.Sort
import Mathlib.Data.Rat.Defs
import Mathlib.Algebra.Order.Ring.Rat
/-
Model of the latency summaries and of the regression check of the SIMD benchmarks.

Sources: /repo/diskann-benchmark-runner/src/utils/percentiles.rs 13-88,
/repo/diskann-benchmark-runner/src/utils/microseconds.rs 10-68,
/repo/diskann-benchmark-runner/src/utils/num.rs 24-72, /repo/diskann-benchmark-simd/src/lib.rs 588-641, 652-666.
Latencies are `u64` microseconds.  Floating point values are rationals, infinities and NaN: rounding and the
sign of zero are not modelled, overflow is (the parameter `M` is the largest finite number).
-/
namespace Verif.Runner.Latency

/-- The failures of `compute_percentiles`: the declared error, and an index out of bounds. -/
inductive Failure
  | empty
  | panic
deriving DecidableEq, Repr

/-- `Percentiles` (percentiles.rs 13-21). -/
structure Percentiles where
  minimum : Nat
  mean : Rat
  median : Rat
  p90 : Nat
  p99 : Nat
deriving DecidableEq, Repr

/-- The sum of `u64`s in a release build, which wraps (percentiles.rs 49, microseconds.rs 57-62). -/
def sumU64 (x : List Nat) : Nat := x.foldl (fun s a => (s + a) % 2 ^ 64) 0

/-- `mean` (percentiles.rs 41-51). -/
def mean (x : List Nat) : Except Failure Rat :=
  if x.isEmpty then .error .empty else .ok ((sumU64 x : Rat) / (x.length : Rat))

/-- `x[i]` with its bounds check. -/
def at' (x : List Nat) (i : Nat) : Except Failure Nat :=
  match x[i]? with
  | some a => .ok a
  | none => .error .panic

/-- `sort_unstable` (percentiles.rs 67); equal numbers cannot be told apart, so any sort gives this. -/
def sorted (x : List Nat) : List Nat := x.insertionSort (· ≤ ·)

/-- The median of the sorted samples (percentiles.rs 69-75). -/
def median (s : List Nat) : Except Failure Rat :=
  let half := s.length / 2
  if s.length % 2 = 1 then do
    let a ← at' s half
    return (a : Rat)
  else do
    let a ← at' s (half - 1)
    let b ← at' s half
    return ((a : Rat) + (b : Rat)) / 2

/-- `compute_percentiles` (percentiles.rs 61-88). -/
def computePercentiles (x : List Nat) : Except Failure Percentiles := do
  let m ← mean x
  let s := sorted x
  let len := s.length
  let med ← median s
  let p90 ← at' s (min (9 * len / 10) (len - 1))
  let p99 ← at' s (min (99 * len / 100) (len - 1))
  let mn ← at' s 0
  return ⟨mn, m, med, p90, p99⟩

/-- `f64`. -/
inductive F64
  | nan
  | inf (neg : Bool)
  | fin (x : Rat)
deriving DecidableEq, Repr

/-- `f64::max`: a NaN is ignored. -/
def F64.max : F64 → F64 → F64
  | .nan, b => b
  | a, .nan => a
  | .inf false, _ => .inf false
  | _, .inf false => .inf false
  | .inf true, b => b
  | a, .inf true => a
  | .fin a, .fin b => .fin (if a < b then b else a)

/-- `max_f64` (percentiles.rs 54-56). -/
def maxF64 : List F64 → Except Failure F64
  | [] => .error .empty
  | a :: rest => .ok (rest.foldl F64.max a)

/-- `InvalidNonNegativeFinite` (num.rs 119-125). -/
inductive InvalidNumber
  | nonFinite
  | negative
deriving DecidableEq, Repr

/-- `NonNegativeFinite::new` (num.rs 62-72). -/
def nonNegativeFinite : F64 → Except InvalidNumber Rat
  | .nan => .error .nonFinite
  | .inf _ => .error .nonFinite
  | .fin x => if x < 0 then .error .negative else if x = 0 then .ok 0 else .ok x

/-- `RelativeChangeError` (num.rs 44-54). -/
inductive ChangeError
  | nonFiniteBefore
  | nonPositiveBefore
  | invalidAfter (e : InvalidNumber)
  | nonFiniteChange
deriving DecidableEq, Repr

/-- `relative_change` (num.rs 24-42). -/
def relativeChange (M : Rat) (before after : F64) : Except ChangeError Rat :=
  match before with
  | .nan => .error .nonFiniteBefore
  | .inf _ => .error .nonFiniteBefore
  | .fin b =>
    if b ≤ 0 then .error .nonPositiveBefore
    else
      match nonNegativeFinite after with
      | .error e => .error (.invalidAfter e)
      | .ok a =>
        let change := (a - b) / b
        if M < change ∨ change < -M then .error .nonFiniteChange else .ok change

/-- What the check uses of `Run` and `RunResult` (lib.rs 652-660): the configuration (`key` stands for the
distance, dimension and number of measurements) and the smallest latency. -/
structure Result where
  key : Nat
  points : Nat
  loops : Nat
  minimum : Nat
deriving DecidableEq, Repr

/-- `computations_per_latency` (lib.rs 663-665); the product wraps in a release build. -/
def Result.perLatency (r : Result) : Nat := (r.points * r.loops) % 2 ^ 64

/-- `b.run == a.run`. -/
def Result.sameRun (b a : Result) : Bool := b.key == a.key && b.points == a.points && b.loops == a.loops

/-- `minimum.as_f64() * 1000.0 / computations_per_latency` (lib.rs 609-610): nanoseconds per computation. -/
def nanos (minimum per : Nat) : F64 :=
  if per = 0 then (if minimum = 0 then .nan else .inf false)
  else .fin ((minimum : Rat) * 1000 / (per : Rat))

/-- One pair of runs passes (lib.rs 620-628). -/
def runPasses (M tol : Rat) (b a : Result) : Bool :=
  let per := b.perLatency
  match relativeChange M (nanos b.minimum per) (nanos a.minimum per) with
  | .ok change => !decide (tol < change)
  | .error _ => false

/-- `Regression::check` (lib.rs 588-641): `none` is an error, otherwise whether it passed. -/
def check (M tol : Rat) (before after : List Result) : Option Bool :=
  if before.length ≠ after.length then none
  else if (before.zip after).all (fun p => p.1.sameRun p.2) then
    some ((before.zip after).foldl (fun passed p => if runPasses M tol p.1 p.2 then passed else false) true)
  else none

end Verif.Runner.Latency
