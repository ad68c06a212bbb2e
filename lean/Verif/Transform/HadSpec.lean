import Verif.Transform.HadModel
import Mathlib.Algebra.Order.Field.Basic
import Mathlib.Algebra.BigOperators.Group.Finset.Basic

/-! Specification vocabulary for C83: the Hadamard transform and distance-preserving transforms. -/

namespace Verif.Rotate

open Finset

variable {K : Type}

/-- The number of binary digits in which both `i` and `j` have a one is odd. -/
def oddOverlap (i j : Nat) : Bool := (popcount (i &&& j)) % 2 == 1

/-- The entry in row `i` and column `j` of the Hadamard matrix. -/
def entry [One K] [Neg K] (i j : Nat) : K := if oddOverlap i j then -1 else 1

/-- `r` is the square root of `a`. -/
def IsRoot [Field K] [LinearOrder K] (r a : K) : Prop := 0 ≤ r ∧ r * r = a

/-- The inner product of two vectors. -/
def inner [Mul K] [Add K] [Zero K] (x y : List K) : K := (List.zipWith (· * ·) x y).sum

/-- The squared Euclidean distance of two vectors. -/
def distSq [Mul K] [Add K] [Sub K] [Zero K] (x y : List K) : K :=
  inner (List.zipWith (· - ·) x y) (List.zipWith (· - ·) x y)

/-- The coordinates of `x`, zero past its end. -/
def pad [Zero K] (x : List K) (i : Nat) : K := x.getD i 0

/-- The coordinates of `f` with the sign changed where `b` says so. -/
def negated [Neg K] (b : Nat → Bool) (f : Nat → K) (i : Nat) : K := if b i then -f i else f i

/-- `f` with the `t` coordinates from `lo` on multiplied by the Hadamard matrix of dimension `t` over the root of `t`. -/
def mix [Field K] (sqrt : K → K) (t lo : Nat) (f : Nat → K) (i : Nat) : K :=
  if lo ≤ i ∧ i < lo + t then (∑ j ∈ range t, entry (i - lo) j * f (lo + j)) / sqrt (t : K) else f i

/-- `y` is the vector with the coordinates `f`, or the coordinates sampled from it, scaled by the root of the ratio of the
number `o` of coordinates to the number of those sampled. -/
def Sampled [Field K] (sqrt : K → K) (f : Nat → K) (o : Nat) : Option (List Nat) → List K → Prop
  | none, y => y = (List.range o).map f
  | some s, y => y = s.map fun i => f i * sqrt ((o : K) / (s.length : K))

/-- The coordinates of the padding transform: random signs, zeros up to the power of two `p`, the Hadamard matrix. -/
def paddingCoords [Field K] (sqrt : K → K) (d : Draws K) (p : Nat) (x : List K) : Nat → K :=
  mix sqrt p 0 (negated d.sign (pad x))

/-- The `o` coordinates of the double transform: random signs, zeros up to `o`, the Hadamard matrix on the first `2 ^ k`,
new random signs, the Hadamard matrix on the last `2 ^ k`. -/
def doubleCoords [Field K] (sqrt : K → K) (d : Draws K) (dim o k : Nat) (x : List K) : Nat → K :=
  mix sqrt (2 ^ k) (o - 2 ^ k) (negated (fun i => d.sign (dim + i)) (mix sqrt (2 ^ k) 0 (negated d.sign (pad x))))

/-- The `o` coordinates of the rotation: the product of the random matrix and the vector with zeros up to `o`. -/
def rotationCoords [Field K] (d : Draws K) (o : Nat) (x : List K) (i : Nat) : K :=
  ∑ j ∈ range o, ((d.matrix o).getD i []).getD j 0 * pad x j

/-- What a generator of random numbers promises: samples without repetition, of the length asked for and in range, and
square matrices whose columns are orthogonal unit vectors. -/
structure Draws.Fair [Field K] (d : Draws K) : Prop where
  nodup : ∀ n m, m ≤ n → (d.sample n m).Nodup
  length : ∀ n m, m ≤ n → (d.sample n m).length = m
  lt : ∀ n m, m ≤ n → ∀ i ∈ d.sample n m, i < n
  square : ∀ n, (d.matrix n).length = n ∧ ∀ row ∈ d.matrix n, row.length = n
  columns : ∀ n i j, i < n → j < n →
    ∑ k ∈ range n, ((d.matrix n).getD k []).getD i 0 * ((d.matrix n).getD k []).getD j 0 = if i = j then 1 else 0

/-- The dimension asked for is not zero (the type of `TargetDim::Override` says so) and indices below it fit in a `u32`. -/
def TargetDim.Allowed : TargetDim → Prop
  | .override target => 0 < target ∧ target ≤ 2 ^ 32
  | _ => True

/-- The same for a kind of transform. -/
def Kind.Allowed : Kind → Prop
  | .padding t => t.Allowed
  | .double t => t.Allowed
  | .null => True
  | .rotation t => t.Allowed

/-- `p` is the least power of two not below `n`. -/
def IsNextPower (n p : Nat) : Prop := (∃ k, p = 2 ^ k) ∧ n ≤ p ∧ ∀ k, n ≤ 2 ^ k → p ≤ 2 ^ k

/-- The draws with the sample of `m` out of `n` replaced by `l`. -/
def Draws.withSample (d : Draws K) (n m : Nat) (l : List Nat) : Draws K :=
  { d with sample := fun n' m' => if n' = n ∧ m' = m then l else d.sample n' m' }

/-- The documented output dimension: the one asked for, or else the input dimension, which the padding transform rounds up
to a power of two if asked for its natural dimension. -/
def Kind.HasOutput (dim out : Nat) : Kind → Prop
  | .padding .natural => IsNextPower dim out
  | .padding .same => out = dim
  | .padding (.override n) => out = n
  | .double .natural => out = dim
  | .double .same => out = dim
  | .double (.override n) => out = n
  | .null => out = dim
  | .rotation .natural => out = dim
  | .rotation .same => out = dim
  | .rotation (.override n) => out = n

end Verif.Rotate
