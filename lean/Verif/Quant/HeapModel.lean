import Mathlib.Order.Defs.LinearOrder

/-! # `SliceHeap`: model of `diskann-quantization/src/algorithms/heap.rs`

Every access to the slice is checked in the model: `none` = an access out of bounds (undefined behaviour in the
code, which uses unchecked accesses) or the loop did not finish. `T: Ord` is a linear order. -/

namespace Verif.Quant

variable {α : Type} [LinearOrder α]

/-- `heap.rs` 118-127 `swap_unchecked`. -/
def swapChecked (xs : Array α) (a b : Nat) : Option (Array α) :=
  if h : a < xs.size ∧ b < xs.size ∧ a ≠ b then some (xs.swap a b h.1 h.2.1) else none

/-- `heap.rs` 134-182 `sift_down`. The first argument bounds the number of iterations. -/
def siftDown : Nat → Array α → Nat → Option (Array α)
  | 0, _, _ => none
  | fuel + 1, xs, pos =>
    let len := xs.size
    let child := 2 * pos + 1
    if child ≤ len - 2 then
      match xs[child]?, xs[child + 1]? with
      | some a, some b =>
        let child' := child + (if a ≤ b then 1 else 0)
        match xs[pos]?, xs[child']? with
        | some p, some c =>
          if p ≥ c then some xs
          else
            match swapChecked xs pos child' with
            | some xs' => siftDown fuel xs' child'
            | none => none
        | _, _ => none
      | _, _ => none
    else if child = len - 1 then
      match xs[pos]?, xs[child]? with
      | some p, some c => if p < c then swapChecked xs pos child else some xs
      | _, _ => none
    else some xs

/-- Iterations of `for i in (0..=start).rev()`, `heap.rs` 88-90. -/
def heapifyFrom (xs : Array α) : Nat → Option (Array α)
  | 0 => siftDown (xs.size + 1) xs 0
  | i + 1 =>
    match siftDown (xs.size + 1) xs (i + 1) with
    | some xs' => heapifyFrom xs' i
    | none => none

/-- `heap.rs` 81-91 `heapify`. -/
def heapify (xs : Array α) : Option (Array α) :=
  if xs.size ≤ 1 then some xs else heapifyFrom xs ((xs.size - 2) / 2)

/-- `heap.rs` 27-35 `new`: `none` = undefined behaviour, `some none` = `EmptySlice`. -/
def SliceHeap.new (xs : Array α) : Option (Option (Array α)) :=
  if xs.isEmpty then some none else (heapify xs).map some

/-- `heap.rs` 60-62 `peek`. -/
def SliceHeap.peek (xs : Array α) : Option α := xs[0]?

/-- `heap.rs` 68-78 `update_root`. -/
def SliceHeap.updateRoot (xs : Array α) (f : α → α) : Option (Array α) :=
  if h : 0 < xs.size then siftDown (xs.size + 1) (xs.set 0 (f xs[0])) 0 else none

/-- Any number of root updates. -/
def SliceHeap.updates (xs : Array α) : List (α → α) → Option (Array α)
  | [] => some xs
  | f :: fs =>
    match SliceHeap.updateRoot xs f with
    | some xs' => SliceHeap.updates xs' fs
    | none => none

end Verif.Quant
