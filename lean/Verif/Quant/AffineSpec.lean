import Mathlib.Data.Rat.Floor
import Mathlib.Algebra.Order.Field.Rat

/-!
# What "a compressed vector stands for a point" means

A compressed vector stores one small code per dimension.  Its **reconstruction** is the
vector of rational numbers those codes stand for.  The properties C73 and C74 compare what
the library computes on the codes with what the textbook formulas below give on the
reconstructions.  Nothing in this file mentions the model of the code.
-/

namespace Verif.Quant.Affine

/-- Inner product of two vectors (the textbook formula). -/
def dot (x y : List Rat) : Rat := (List.zipWith (· * ·) x y).sum

/-- Squared Euclidean distance of two vectors (the textbook formula). -/
def sqDist (x y : List Rat) : Rat := (List.zipWith (fun a b => (a - b) * (a - b)) x y).sum

/-- Squared norm of a vector. -/
def sqNorm (x : List Rat) : Rat := (x.map (fun a => a * a)).sum

/-- `c` is a best code for the value `v`, among the codes `0 … m`, when code `k` stands for
`value k`: it is one of the codes, and no other code stands for a closer value. -/
def BestCode (m : Nat) (value : Nat → Rat) (v : Rat) (c : Nat) : Prop :=
  c ≤ m ∧ ∀ c', c' ≤ m → |value c - v| ≤ |value c' - v|

/-- The value code `c` stands for in a scalar quantizer of `n` bits whose range in this
dimension is `[s, s + scale]`: the codes `0 … 2^n - 1` divide the range evenly. -/
def scalarValue (n : Nat) (scale s : Rat) (c : Nat) : Rat := s + (c : Rat) * (scale / ((2 : Rat) ^ n - 1))

/-- The reconstruction of a scalar quantized vector. -/
def scalarRecon (n : Nat) (scale : Rat) (shift : List Rat) (codes : List Nat) : List Rat :=
  List.zipWith (fun s c => scalarValue n scale s c) shift codes

end Verif.Quant.Affine
