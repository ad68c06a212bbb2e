import Mathlib.Algebra.Order.Field.Basic
import Mathlib.Algebra.Order.AbsoluteValue.Basic
import Mathlib.Algebra.Order.Ring.Int
import Mathlib.Data.BitVec

/-! # What the distance functions mean -/

namespace Verif.Vec.Spec

/-- Sum of the squared differences. -/
def sqDist {R : Type} [CommRing R] (x y : List R) : R := ((x.zip y).map (fun p => (p.1 - p.2) * (p.1 - p.2))).sum

/-- Inner product. -/
def dot {R : Type} [CommRing R] (x y : List R) : R := ((x.zip y).map (fun p => p.1 * p.2)).sum

/-- Sum of the absolute values. -/
def l1 {R : Type} [CommRing R] [LinearOrder R] (x : List R) : R := (x.map (fun v => |v|)).sum

/-- The cosine of the angle between two vectors; zero when a squared norm is below the smallest normal `f32`. -/
def cosine {K : Type} [Field K] [LinearOrder K] (sqrt : K → K) (x y : List K) : K :=
  if dot x x < 1 / 2 ^ 126 ∨ dot y y < 1 / 2 ^ 126 then 0 else dot x y / (sqrt (dot x x) * sqrt (dot y y))

/-- `sqrt` is the square root on non-negative numbers. -/
def IsSqrt {K : Type} [Field K] [LinearOrder K] (sqrt : K → K) : Prop :=
  ∀ a, 0 ≤ a → 0 ≤ sqrt a ∧ sqrt a * sqrt a = a

/-- `v` is a single precision approximation of the integer `z`: exact up to `2 ^ 24`, otherwise with a relative error of at
most `2 ^ -24`. -/
def Single (z v : Int) : Prop := (|z| ≤ 2 ^ 24 → v = z) ∧ 2 ^ 24 * |v - z| ≤ |z|

/-- The integers stored in a slice of `i8`. -/
def signed (x : List (BitVec 8)) : List Int := x.map BitVec.toInt

/-- The integers stored in a slice of `u8`. -/
def unsigned (x : List (BitVec 8)) : List Int := x.map (fun b => (b.toNat : Int))

end Verif.Vec.Spec
