import Mathlib.Data.List.Sort

/-!
# Model of `diskann/src/graph/adjacencylist.rs` and `diskann/src/graph/internal/backedge.rs`

An `AdjacencyList<I>` is a list of ids. `ContainsSimd::contains_simd` is list membership.
-/

namespace Verif.Graph

variable {I : Type} [DecidableEq I]

/-- `AdjacencyList::push` (adjacencylist.rs:82–92). -/
def push (l : List I) (i : I) : List I × Bool :=
  if i ∈ l then (l, false) else (l ++ [i], true)

/-- `AdjacencyList::extend_from_slice` (adjacencylist.rs:102–107): pushes each id, counting the
pushes that reported `true`. -/
def extendFromSlice (l : List I) : List I → List I × Nat
  | [] => (l, 0)
  | i :: is =>
    let r := push l i
    let s := extendFromSlice r.1 is
    (s.1, (if r.2 then 1 else 0) + s.2)

/-- `AdjacencyList::last` (adjacencylist.rs:44–49). -/
def last (l : List I) (count : Nat) : Option (List I) :=
  if count ≤ l.length then some (l.drop (l.length - count)) else none

/-- `Vec::dedup` (used at adjacencylist.rs:188): drop every element equal to its predecessor. -/
def dedupAdjacent : List I → List I
  | [] => []
  | [a] => [a]
  | a :: b :: rest => if a = b then dedupAdjacent (b :: rest) else a :: dedupAdjacent (b :: rest)

/-- `AdjacencyList::from_iter_untrusted` (adjacencylist.rs:181–190). `sort_unstable` on a total order
gives the sorted list. -/
def fromIterUntrusted [LinearOrder I] (is : List I) : List I :=
  dedupAdjacent (is.insertionSort (· ≤ ·))

/-- `AdjacencyList::all_unique` (adjacencylist.rs:229–235). -/
def allUnique (l : List I) : Bool := (extendFromSlice [] l).2 == l.length

/-- `resize` + writing `vals` through the guard + `finish(atMost)` (adjacencylist.rs:162–168,
350–354); the debug-only uniqueness panic is not modelled. -/
def resizeFinish (vals : List I) (atMost : Nat) : List I := vals.take atMost

/-- `resize` + dropping the guard without `finish` (adjacencylist.rs:381–383). -/
def resizeAbandon : List I := []

/-! ## `BackedgeBuffer` (internal/backedge.rs) -/

/-- `enum Inner` (backedge.rs:33–40). -/
inductive Backedge (I : Type) where
  | none
  | one (v : I)
  | two (v0 v1 : I)
  | three (v0 v1 v2 : I)
  | four (v0 v1 v2 v3 : I)
  | many (l : List I)
deriving DecidableEq

/-- `BackedgeBuffer::push` (backedge.rs:86–140). -/
def Backedge.push (b : Backedge I) (value : I) : Backedge I × Bool :=
  match b with
  | .none => (.one value, true)
  | .one v => if v ≠ value then (.two v value, true) else (.one v, false)
  | .two v0 v1 =>
    if v0 ≠ value ∧ v1 ≠ value then (.three v0 v1 value, true) else (.two v0 v1, false)
  | .three v0 v1 v2 =>
    if v0 ≠ value ∧ v1 ≠ value ∧ v2 ≠ value then (.four v0 v1 v2 value, true)
    else (.three v0 v1 v2, false)
  | .four v0 v1 v2 v3 =>
    if v0 ≠ value ∧ v1 ≠ value ∧ v2 ≠ value ∧ v3 ≠ value then
      (.many (resizeFinish [v0, v1, v2, v3, value] 5), true)
    else (.four v0 v1 v2 v3, false)
  | .many l => let r := Graph.push l value; (.many r.1, r.2)

/-- `Deref for BackedgeBuffer` (backedge.rs:152–164). -/
def Backedge.toList : Backedge I → List I
  | .none => []
  | .one v => [v]
  | .two v0 v1 => [v0, v1]
  | .three v0 v1 v2 => [v0, v1, v2]
  | .four v0 v1 v2 v3 => [v0, v1, v2, v3]
  | .many l => l

end Verif.Graph
