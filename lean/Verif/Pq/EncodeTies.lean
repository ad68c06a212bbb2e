import Verif.Pq.EncodeBatchProps

/-! # C79: concrete tables -/

namespace Verif.Pq

open Verif.Pq.Spec

/-- Three dimensions in two chunks. -/
def exOffsets : Offsets := ⟨3, [0, 2, 3]⟩

/-- Three pivots. -/
def exPivots : List (List Rat) := [[0, 0, 4], [1, 2, -1], [3, 3, 2]]

example : Partition exOffsets ∧ 0 < exPivots.length ∧ exPivots.length ≤ 256 ∧ (∀ p ∈ exPivots, p.length = exOffsets.dim) ∧
    (exPivots.length + 15) * exOffsets.dim < 2 ^ 61 := by
  refine ⟨((C79_offsets [0, 2, 3] exOffsets).1.mp (by decide +kernel)).2, by decide, by decide, by decide, by decide⟩

example : ∀ i, i < exOffsets.len → Bounded exPivots exOffsets i (piece exOffsets i [1, 1, 3]) := by
  intro i hi
  refine ⟨0, by decide, ?_⟩
  have : i = 0 ∨ i = 1 := by unfold exOffsets Offsets.len at hi; simp at hi; omega
  rcases this with rfl | rfl <;> decide +kernel

/-- Encoding with the transposed table; `none` if anything fails. -/
def encodeT (P : List (List (Fl Rat))) (o : Offsets) (x : List (Fl Rat)) : Option (Except CompressErr (List Nat)) := do
  let t ← (← Transposed.fromParts (mat P o.dim) o)
  t.compressInto x (List.replicate o.len 0)

/-- Encoding with the basic table. -/
def encodeB (P : List (List (Fl Rat))) (o : Offsets) (x : List (Fl Rat)) : Option (Except CompressErr (List Nat)) := do
  let t ← Basic.new (mat P o.dim) o
  t.compressInto x (List.replicate o.len 0)

/-- Encoding a matrix with the transposed table. -/
def encodeM (P : List (List (Fl Rat))) (o : Offsets) (X : List (List (Fl Rat))) : Option (Except BatchErr (List Nat)) := do
  let t ← (← Transposed.fromParts (mat P o.dim) o)
  t.compressMatrix (mat X o.dim) ⟨List.replicate (X.length * o.len) 0, X.length, o.len⟩

/-- The codes, if there are any. -/
def codesOf {E : Type} : Option (Except E (List Nat)) → Option (List Nat)
  | some (.ok c) => some c
  | _ => none

/-- The error, if there is one. -/
def errorOf {E : Type} : Option (Except E (List Nat)) → Option E
  | some (.error e) => some e
  | _ => none

example : codesOf (encodeT (exPivots.map fl) exOffsets (fl [1, 1, 3])) = some [1, 0] ∧
    codesOf (encodeB (exPivots.map fl) exOffsets (fl [1, 1, 3])) = some [1, 0] ∧
    codesOf (encodeM (exPivots.map fl) exOffsets [fl [1, 1, 3], fl [0, 0, 0], fl [3, 3, 0], fl [1, 1, 3], fl [3, 2, 2]]) =
      some [1, 0, 0, 1, 2, 1, 1, 0, 2, 2] := by decide +kernel

example : errorOf (encodeT (exPivots.map fl) exOffsets [.num 1, .num 2, .nan]) = some (.infinityOrNaN 1) ∧
    errorOf (encodeB (exPivots.map fl) exOffsets [.num 1, .inf, .nan]) = some (.infinityOrNaN 0) ∧
    errorOf (encodeM (exPivots.map fl) exOffsets [fl [1, 1, 3], [.num 1, .num 2, .nan], fl [3, 3, 0], fl [1, 1, 3],
      [.ninf, .num 0, .num 0]]) = some (.infinityOrNaN 0 4) := by decide +kernel

/-- Pivots 1 and 8 coincide. -/
def tiePivots : List (List Rat) := [[5], [1], [5], [5], [5], [5], [5], [5], [1]]

/-- **C79, disagreement.** The documentation of the transposed search says that ties are resolved to the lowest index. They are
not: of two equal pivots at positions 1 and 8 the transposed table takes 8, and the basic table 1. -/
theorem C79_ties_false :
    Closest tiePivots ⟨1, [0, 1]⟩ 0 [1] 1 ∧ Closest tiePivots ⟨1, [0, 1]⟩ 0 [1] 8 ∧
    codesOf (encodeT (tiePivots.map fl) ⟨1, [0, 1]⟩ (fl [1])) = some [8] ∧
    codesOf (encodeB (tiePivots.map fl) ⟨1, [0, 1]⟩ (fl [1])) = some [1] := by
  have h : ∀ j, j < 9 → dist tiePivots ⟨1, [0, 1]⟩ 0 [1] 1 ≤ dist tiePivots ⟨1, [0, 1]⟩ 0 [1] j ∧
      dist tiePivots ⟨1, [0, 1]⟩ 0 [1] 8 ≤ dist tiePivots ⟨1, [0, 1]⟩ 0 [1] j := by decide +kernel
  exact ⟨⟨by decide, fun j hj => (h j hj).1⟩, ⟨by decide, fun j hj => (h j hj).2⟩, by decide +kernel, by decide +kernel⟩

/-- The first pivot is not a number. -/
def nanPivots : List (List (Fl Rat)) :=
  [[.nan], [.num 9], [.num 9], [.num 9], [.num 9], [.num 9], [.num 9], [.num 9], [.num 1]]

/-- **C79, disagreement.** The documentation says that the batch search has the same semantics as the single one. With a NaN
among the pivots it has not: the pivot eight positions after the NaN is lost although it equals the query. The single search
finds it, in the batch each of the four equal queries gets a pivot that is farther away. -/
theorem C79_batch_nan_false :
    codesOf (encodeT nanPivots ⟨1, [0, 1]⟩ (fl [1])) = some [8] ∧
    codesOf (encodeM nanPivots ⟨1, [0, 1]⟩ (List.replicate 4 (fl [1]))) = some [1, 1, 1, 1] := by
  decide +kernel

end Verif.Pq
