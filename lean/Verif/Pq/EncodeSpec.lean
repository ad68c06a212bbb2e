import Verif.Pq.EncodeModel
import Verif.Vec.SimdSpec

/-! # What encoding with product quantization means -/

namespace Verif.Pq.Spec

variable {K : Type} [Field K] [LinearOrder K]

/-- A valid partition of the dimensions: chunk `i` covers `offsets[i] .. offsets[i + 1]`, none is empty, the first starts at
zero and the last ends at the dimension. -/
structure Partition (o : Offsets) : Prop where
  two : 2 ≤ o.offsets.length
  first : o.offsets.getD 0 0 = 0
  mono : ∀ i, i + 1 < o.offsets.length → o.offsets.getD i 0 < o.offsets.getD (i + 1) 0
  last : o.offsets.getD (o.offsets.length - 1) 0 = o.dim

/-- Number of dimensions of chunk `i`. -/
def width (o : Offsets) (i : Nat) : Nat := o.offsets.getD (i + 1) 0 - o.offsets.getD i 0

/-- The part of a vector that chunk `i` covers. -/
def piece {T : Type} (o : Offsets) (i : Nat) (x : List T) : List T := (x.drop (o.offsets.getD i 0)).take (width o i)

/-- A matrix of pivots or vectors from its rows. -/
def mat {T : Type} (rows : List (List T)) (dim : Nat) : Mat T := ⟨rows.flatten, rows.length, dim⟩

/-- Finite numbers as floats. -/
def fl (x : List K) : List (Fl K) := x.map Fl.num

/-- Squared distance between `y`, chunk `i` of some vector, and chunk `i` of pivot `j`. -/
def dist (P : List (List K)) (o : Offsets) (i : Nat) (y : List K) (j : Nat) : K :=
  Vec.Spec.sqDist y (piece o i (P.getD j []))

/-- Pivot `j` is one of the closest to `y`, chunk `i` of some vector. -/
def Closest (P : List (List K)) (o : Offsets) (i : Nat) (y : List K) (j : Nat) : Prop :=
  j < P.length ∧ ∀ j', j' < P.length → dist P o i y j ≤ dist P o i y j'

/-- Some element is infinite or not a number. -/
def NonFinite (x : List (Fl K)) : Prop := ∃ e ∈ x, e.isFinite = false

/-- The squared distance of a closest pivot is below the largest float. -/
def Bounded (P : List (List K)) (o : Offsets) (i : Nat) (y : List K) : Prop :=
  ∃ j, j < P.length ∧ dist P o i y j < f32Max

/-- The order in which the transposed table resolves ties: by index modulo eight, then by index. -/
def Before (r r' : Nat) : Prop := r % 8 < r' % 8 ∨ (r % 8 = r' % 8 ∧ r ≤ r')

/-- The order of the calls of `compress_batch`: chunk by chunk, and the rows in order. -/
def callOrder (rows chunks : Nat) : List (Nat × Nat) :=
  (List.range chunks).flatMap (fun i => (List.range rows).map (fun row => (row, i)))

/-- Calls of `f` one after the other, up to the first error, which is returned with its row and chunk. -/
def deliver {σ : Type} (f : Delegate σ) (near : Nat → Nat → Nat) : List (Nat × Nat) → σ → Except (Nat × Nat) σ
  | [], s => .ok s
  | (row, i) :: rest, s =>
    match f s row i (near row i) with
    | none => .error (row, i)
    | some s => deliver f near rest s

end Verif.Pq.Spec
